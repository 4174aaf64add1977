import Verif.ChanLink

/-!
# Ownership of the operations of the wait cell and of the wait queue
-/

namespace Thingbuf.Chan

variable {w : Nat} {V W : Type} {c : Config W} {tr : Trace V W} {s : State w V W}

theorem upd_same {α : Type} (f : Nat → α) (i : Nat) : upd f i (f i) = f := by
  funext j; rw [upd_apply]; split
  · rename_i e; rw [e]
  · rfl

theorem Same.congr {K : Type} {fs : SPC → Option (Nat × K)} {fr : RPC W → Option (Nat × K)} {fc : CPC → Option (Nat × K)}
    {ff : OpId → RefPC → Option (Nat × K)} {x : Agent} {s t : State w V W} (h : Same x s t)
    (hx : claimOf fs fr fc ff t x = claimOf fs fr fc ff s x) (y : Agent) :
    claimOf fs fr fc ff t y = claimOf fs fr fc ff s y := by
  by_cases hy : y = x
  · rw [hy, hx]
  · exact h.claim y hy

theorem same_mk (s : State w V W) (x : Agent) (n l d p) :
    Same x s { s with handles := n, txCount := l, calls := d, refs := p } :=
  ⟨fun _ _ => rfl, fun _ => rfl, fun _ => rfl, fun _ _ => rfl⟩

theorem Same.trans {x : Agent} {s t u : State w V W} (h : Same x s t) (h' : Same x t u) : Same x s u :=
  ⟨fun k hk => (h'.snd k hk).trans (h.snd k hk), fun hx => (h'.rx hx).trans (h.rx hx),
    fun hx => (h'.closer hx).trans (h.closer hx), fun k hk => (h'.ref k hk).trans (h.ref k hk)⟩

/-! ### The `Sender`s and the send calls -/

/-- A send call in progress, or its `SendRef` is alive. -/
def SPC.active : SPC → Bool
  | .off | .done | .forgotten _ => false
  | _ => true

structure HInv (s : State w V W) : Prop where
  count : s.txCount = s.handles.length
  nodup : s.handles.Nodup
  calls : ∀ x ∈ s.calls, x.2 ∈ s.handles
  act : ∀ k, (s.snd k).active = true ↔ ∃ h, (k, h) ∈ s.calls
  closer : s.closer = .none ↔ s.handles ≠ []

theorem HInv.same {t : State w V W} (h : HInv s) (h1 : t.handles = s.handles) (h2 : t.txCount = s.txCount)
    (h3 : t.calls = s.calls) (h4 : t.closer = .none ↔ s.closer = .none) (h5 : ∀ j, (t.snd j).active = (s.snd j).active) :
    HInv t :=
  ⟨by rw [h1, h2]; exact h.count, by rw [h1]; exact h.nodup, by rw [h1, h3]; exact h.calls,
    fun k => by rw [h3, h5]; exact h.act k, by rw [h1, h4]; exact h.closer⟩

theorem HInv.sgoto {k : Nat} {p : SPC} (h : HInv s) (h1 : (s.snd k).active = p.active) : HInv (s.sgoto k p) := by
  refine h.same rfl rfl rfl Iff.rfl fun j => ?_
  simp only [State.sgoto, upd_apply]
  split
  · rename_i e; rw [e, h1]
  · rfl

theorem HInv.sendEnd {k : Nat} {p : SPC} (h : HInv s) (h1 : p.active = false) : HInv (s.sendEnd k p) := by
  refine ⟨h.count, h.nodup, ?_, ?_, h.closer⟩
  · intro x hx
    exact h.calls x (List.mem_filter.1 hx).1
  · intro j
    simp only [State.sendEnd, State.sgoto, upd_apply]
    split
    · rename_i e
      subst e
      simp [h1]
    · rename_i e
      rw [h.act j]
      simp [e]

theorem HInv.send {k x : Nat} {p : SPC} (h : HInv s) (h1 : s.snd k = .off) (h2 : x ∈ s.handles) (h3 : p.active = true) :
    HInv { s.sgoto k p with calls := (k, x) :: s.calls } := by
  refine ⟨h.count, h.nodup, ?_, ?_, h.closer⟩
  · intro y hy
    rcases List.mem_cons.1 hy with rfl | hy
    · exact h2
    · exact h.calls y hy
  · intro j
    simp only [State.sgoto, upd_apply]
    split
    · rename_i e
      subst e
      simp only [h3, true_iff]
      exact ⟨x, List.mem_cons_self ..⟩
    · rename_i e
      rw [h.act j]
      simp [e]

theorem HInv.core {t : State w V W} {act} {r} {es : List (Api W)} (h : HInv s) (hm : CoreMove c s act r t es) : HInv t := by
  cases hm with
  | cCall pan o r hp => exact h.same rfl rfl rfl (by simp [hp]) fun _ => rfl
  | cNext a r hp => exact h.same rfl rfl rfl (by simp [hp]) fun _ => rfl
  | cSkip a r hp => exact h.same rfl rfl rfl (by simp [hp]) fun _ => rfl
  | send k x wait a r hp h2 => exact h.send hp h2 (by rfl)
  | pushClosed | fullOnly | pushPanic => exact h.sendEnd rfl
  | pushOk k a att i hp => exact h.sgoto (by rw [hp]; rfl)
  | fullStart k a i hp => exact h.sgoto (by rw [hp]; rfl)
  | fullBlocking k a i hp => exact h.sgoto (by rw [hp]; rfl)
  | fullAsync k a i hp => exact h.sgoto (by rw [hp]; rfl)
  | retry k att a r hp => exact h.sgoto (by rw [hp]; rfl)
  | dropSend k a r hp => exact h.sgoto (by rw [hp]; rfl)
  | _ => exact h.same rfl rfl rfl Iff.rfl fun _ => rfl

theorem HInv.cell {t : State w V W} {act} {r} {es : List (Api W)} (h : HInv s) (hm : CellMove c s act r t es) : HInv t := by
  cases hm with
  | cCall o evs hp => exact h.same rfl rfl rfl (by simp [hp]) fun _ => rfl
  | cEnd o evs hp => exact h.same rfl rfl rfl (by simp [hp]) fun _ => rfl
  | notify k o evs hp => exact h.sgoto (by rw [hp]; rfl)
  | notifyEnd => exact h.sendEnd rfl
  | _ => exact h.same rfl rfl rfl Iff.rfl fun _ => rfl

theorem HInv.queue {t : State w V W} {act} {r} {es : List (Api W)} (h : HInv s) (hm : QueueMove c s act r t es) : HInv t := by
  cases hm with
  | start k v evs hp => exact h.sgoto (by rw [hp]; rfl)
  | cont k v evs hp => exact h.sgoto (by rcases hp with hp | hp <;> rw [hp] <;> rfl)
  | startWait k sp evs hp => exact h.sgoto (by rw [hp]; rfl)
  | startNotified k sp evs hp => exact h.sgoto (by rw [hp]; rfl)
  | contWait k sp evs hp => exact h.sgoto (by rw [hp]; rfl)
  | contNotified k sp evs hp => exact h.sgoto (by rw [hp]; rfl)
  | cancel k evs hp => exact h.sgoto (by rw [hp]; rfl)
  | startClosed | startPanic | contClosed | contPanic | dropEnd | timeout => exact h.sendEnd rfl
  | _ => exact h.same rfl rfl rfl Iff.rfl fun _ => rfl

theorem HInv.api {t : State w V W} {e : Api W} (h : HInv s) (hm : ApiMove c s t e) : HInv t := by
  cases hm with
  | clone x y h1 h2 =>
    refine ⟨by simp [h.count], List.nodup_cons.2 ⟨h2, h.nodup⟩, fun z hz => List.mem_cons_of_mem _ (h.calls z hz), h.act, ?_⟩
    simp only [ne_eq, reduceCtorEq, not_false_eq_true, iff_true]
    exact h.closer.2 (List.ne_nil_of_mem h1)
  | dropTx x pan h1 h2 h3 =>
    refine ⟨?_, h.nodup.erase _, ?_, h.act, ?_⟩
    · simp only [List.length_erase_of_mem h1, h.count]
    · intro z hz
      exact (h.nodup.mem_erase_iff).2 ⟨h2 z hz, h.calls z hz⟩
    · have h4 : s.closer = .none := h.closer.2 (List.ne_nil_of_mem h1)
      simp only [h4, true_iff]
      intro he
      have := List.length_erase_of_mem h1
      rw [he, ← h.count] at this
      simp at this
      omega
  | dropLast x pan h1 h2 h3 =>
    have he : s.handles.erase x = [] := by
      have := List.length_erase_of_mem h1
      rw [← h.count] at this
      exact List.eq_nil_of_length_eq_zero (by omega)
    refine ⟨?_, h.nodup.erase _, ?_, h.act, by simp [he]⟩
    · simp only [List.length_erase_of_mem h1, h.count]
    · intro z hz
      exact (h.nodup.mem_erase_iff).2 ⟨h2 z hz, h.calls z hz⟩
  | forgetSend => exact h.sendEnd rfl
  | _ => exact h.same rfl rfl rfl Iff.rfl fun _ => rfl

theorem HInv.next {s' : State w V W} {evs : Trace V W} (h : HInv s) (ht : Tr c s s' evs) : HInv s' := by
  cases ht with
  | api hm => exact h.api hm
  | core h1 hm => exact (h.core hm).same rfl rfl rfl Iff.rfl fun _ => rfl
  | cell h1 hm => exact (h.cell hm).same rfl rfl rfl Iff.rfl fun _ => rfl
  | queue h1 hm => exact (h.queue hm).same rfl rfl rfl Iff.rfl fun _ => rfl

theorem ExecM.hinv {m : Bool} (h : ExecM m c tr s) : HInv s := by
  induction h with
  | stale hm he hs ih => exact ih.same rfl rfl rfl Iff.rfl fun _ => rfl
  | mem core cell hm he h1 h2 ih => exact ih.same rfl rfl rfl Iff.rfl fun _ => rfl
  | init => exact ⟨rfl, by simp [State.init], by simp [State.init], by simp [State.init, SPC.active], by simp [State.init]⟩
  | step _ hs ih => exact ih.next (step_tr hs)

theorem CoreMove.senders {t : State w V W} {act} {r} {es : List (Api W)} (hm : CoreMove c s act r t es) :
    t.handles = s.handles ∧ ∀ e ∈ es, ∀ y, sendersStep y (.api e : Ev V W) = y := by
  cases hm <;> refine ⟨rfl, ?_⟩ <;> intro e he y <;> simp at he <;> (try rcases he with rfl | rfl) <;> (try subst he) <;> rfl
theorem CellMove.senders {t : State w V W} {act} {r} {es : List (Api W)} (hm : CellMove c s act r t es) :
    t.handles = s.handles ∧ ∀ e ∈ es, ∀ y, sendersStep y (.api e : Ev V W) = y := by
  cases hm <;> refine ⟨rfl, ?_⟩ <;> intro e he y <;> simp at he <;> (try subst he) <;> rfl
theorem QueueMove.senders {t : State w V W} {act} {r} {es : List (Api W)} (hm : QueueMove c s act r t es) :
    t.handles = s.handles ∧ ∀ e ∈ es, ∀ y, sendersStep y (.api e : Ev V W) = y := by
  cases hm <;> refine ⟨rfl, ?_⟩ <;> intro e he y <;> simp at he <;> (try subst he) <;> rfl

theorem foldl_id {α β : Type} {f : α → β → α} : ∀ (l : List β) (x : α), (∀ e ∈ l, ∀ y, f y e = y) → l.foldl f x = x := by
  intro l
  induction l with
  | nil => intros; rfl
  | cons e l ihl =>
    intro x hl
    rw [List.foldl_cons, hl e (List.mem_cons_self ..)]
    exact ihl x fun e' he' => hl e' (List.mem_cons_of_mem _ he')

/-- The model's list of `Sender`s is the specification's. -/
theorem ExecM.senders {m : Bool} (h : ExecM m c tr s) : senders tr = s.handles := by
  induction h with
  | stale hm he hs ih => exact ih
  | mem core cell hm he h1 h2 ih => exact ih
  | init => rfl
  | step _ hs ih =>
    have hc := step_tr hs
    simp only [Chan.senders] at ih ⊢
    rw [List.foldl_append, ih]
    cases hc with
    | api hm => cases hm <;> rfl
    | core h1 hm =>
      rw [foldl_id, hm.senders.1]
      intro e he y
      rcases List.mem_append.1 he with he | he
      · obtain ⟨e, _, rfl⟩ := List.mem_map.1 he; rfl
      · obtain ⟨e, he', rfl⟩ := List.mem_map.1 he
        exact hm.senders.2 e he' y
    | cell h1 hm =>
      rw [foldl_id, hm.senders.1]
      intro e he y
      rcases List.mem_append.1 he with he | he
      · obtain ⟨e, _, rfl⟩ := List.mem_map.1 he; rfl
      · obtain ⟨e, he', rfl⟩ := List.mem_map.1 he
        exact hm.senders.2 e he' y
    | queue h1 hm =>
      rw [foldl_id, hm.senders.1]
      intro e he y
      rcases List.mem_append.1 he with he | he
      · obtain ⟨e, _, rfl⟩ := List.mem_map.1 he; rfl
      · obtain ⟨e, he', rfl⟩ := List.mem_map.1 he
        exact hm.senders.2 e he' y

/-! ### The ring buffer, other moves -/

theorem coreClaim_api {t : State w V W} {e : Api W} (h : HInv s) (hm : ApiMove c s t e) (y : Agent) :
    coreClaim t y = coreClaim s y := by
  cases hm with
  | clone => exact Same.congr (x := y) ⟨fun _ _ => rfl, fun _ => rfl, fun _ => rfl, fun _ _ => rfl⟩ rfl y
  | dropTx => exact Same.congr (x := y) ⟨fun _ _ => rfl, fun _ => rfl, fun _ => rfl, fun _ _ => rfl⟩ rfl y
  | dropLast x pan h1 =>
    refine Same.congr (x := .closer) (s := s) (t := { s with handles := _, txCount := _, closer := .toClose pan }) ⟨fun _ _ => rfl, fun _ => rfl, fun h => absurd rfl h, fun _ _ => rfl⟩ ?_ y
    simp [claimOf, h.closer.2 (List.ne_nil_of_mem h1), closerCore]
  | forgetSend k a h => exact (same_sendEnd ..).congr (by simp [claimOf, h, sndCore]) y
  | poll p v h => exact (same_rgoto ..).congr (by simp [claimOf, h, rxCore, State.rgoto]) y
  | forgetRecv a h => exact (same_refEnd ..).congr (by simp [claimOf, h, refCore]) y
  | dropRx p pan h => exact (same_rgoto ..).congr (by simp [claimOf, h, rxCore, State.rgoto]) y

theorem coreClaim_cell {t : State w V W} {act} {r} {es : List (Api W)} (hm : CellMove c s act r t es) (y : Agent) :
    coreClaim t y = coreClaim s y := by
  cases hm with
  | cCall o evs h => exact (same_closer ..).congr (by simp [claimOf, h, closerCore]) y
  | cStay => rfl
  | cEnd o evs h => exact (same_closer ..).congr (by simp [claimOf, h, closerCore]) y
  | notify k o evs h => exact (same_sgoto ..).congr (by simp [claimOf, h, sndCore]) y
  | notifyStay => rfl
  | notifyEnd k o evs h => exact (same_sendEnd ..).congr (by simp [claimOf, h, sndCore]) y
  | wait v o evs h => exact (same_rgoto ..).congr (by simp [claimOf, h, rxCore, State.rgoto]) y
  | waitStay => rfl
  | waitWait o v evs h => exact (same_rgoto ..).congr (by simp [claimOf, h, rxCore, State.rgoto]) y
  | waitClosed o v evs h => exact (same_rgoto ..).congr (by simp [claimOf, h, rxCore, State.rgoto]) y
  | waitNotified o v evs h => exact (same_rgoto ..).congr (by simp [claimOf, h, rxCore, State.rgoto]) y
  | waitPanic o v evs h => exact (same_rgoto ..).congr (by simp [claimOf, h, rxCore, State.rgoto]) y

theorem coreClaim_queue {t : State w V W} {act} {r} {es : List (Api W)} (hm : QueueMove c s act r t es) (y : Agent) :
    coreClaim t y = coreClaim s y := by
  cases hm with
  | start k v evs h => exact (same_sgoto ..).congr (by simp [claimOf, h, sndCore]) y
  | cont k v evs h => exact (same_sgoto ..).congr (by rcases h with h | h <;> simp [claimOf, h, sndCore]) y
  | timeout k evs h => exact (same_sendEnd ..).congr (by simp [claimOf, h, sndCore]) y
  | startStay => rfl
  | startClosed k sp evs h => exact (same_sendEnd ..).congr (by simp [claimOf, h, sndCore]) y
  | startWait k sp evs h => exact (same_sgoto ..).congr (by simp [claimOf, h, sndCore]) y
  | startNotified k sp evs h => exact (same_sgoto ..).congr (by simp [claimOf, h, sndCore]) y
  | startPanic k sp evs r h => exact (same_sendEnd ..).congr (by simp [claimOf, h, sndCore]) y
  | contStay => rfl
  | contClosed k sp evs h => exact (same_sendEnd ..).congr (by simp [claimOf, h, sndCore]) y
  | contWait k sp evs h => exact (same_sgoto ..).congr (by simp [claimOf, h, sndCore]) y
  | contNotified k sp evs h => exact (same_sgoto ..).congr (by simp [claimOf, h, sndCore]) y
  | contPanic k sp evs r h => exact (same_sendEnd ..).congr (by simp [claimOf, h, sndCore]) y
  | cancel k evs h => exact (same_sgoto ..).congr (by simp [claimOf, h, sndCore]) y
  | dropStay => rfl
  | dropEnd k sp evs r h => exact (same_sendEnd ..).congr (by simp [claimOf, h, sndCore]) y
  | notify a o evs h => exact (same_refgoto ..).congr (by simp [claimOf, h, refCore]) y
  | notifyStay => rfl
  | notifyEnd a o sp evs h => exact (same_refEnd ..).congr (by simp [claimOf, h, refCore]) y
  | close o evs h => exact (same_rgoto ..).congr (by simp [claimOf, h, rxCore, State.rgoto]) y
  | closeStay => rfl
  | closeEnd o sp evs h => exact (same_rgoto ..).congr (by simp [claimOf, h, rxCore, State.rgoto]) y

theorem ExecM.coreOwns {m : Bool} (h : ExecM m c tr s) : CoreOwns s := by
  induction h with
  | stale hm he hs ih => exact Owns.congr ih (fun y => by cases y <;> rfl) fun _ => rfl
  | mem core cell hm he h1 h2 ih => exact Owns.congr ih (fun y => by cases y <;> rfl) fun a => by simp only [h1]
  | init =>
    constructor
    · intro x a k hx; cases x <;> cases hx
    · intro x y a k k' hx; cases x <;> cases hx
    · intro a k hk; cases hk
  | step he hs ih =>
    cases step_tr hs with
    | api hm => exact Owns.congr ih (coreClaim_api he.hinv hm) fun a => by rw [hm.frame.1]
    | core h1 hm => exact ih.core h1 hm
    | cell h1 hm => exact Owns.congr ih (fun y => coreClaim_cell hm y) fun a => by simp only [hm.frame.1]
    | queue h1 hm => exact Owns.congr ih (fun y => coreClaim_queue hm y) fun a => by simp only [hm.frame.1]

/-! ### The `RecvRef`s -/

def popDone : PC w → Bool
  | .popHeld _ _ | .done => true
  | _ => false

theorem popDone_step {cap : Nat} {s s' : Thingbuf.State w V} {act : Thingbuf.Act V} {evs : List (Event V)}
    (h : Thingbuf.step cap s act = some (s', evs)) {a : OpId} (ha : popDone (s.pc a) = true) : popDone (s'.pc a) = true := by
  by_cases hb : a = actOp act
  · subst hb
    cases act <;> simp only [Thingbuf.step, Thingbuf.runStep, actOp] at h ha ⊢
    all_goals
      repeat' split at h
      all_goals first
        | (cases h; done)
        | (exfalso; rename_i hp; rw [hp] at ha; cases ha; done)
        | (exfalso; rename_i hp _; rw [hp] at ha; cases ha; done)
        | (cases h; simp [State.goto, popDone]; done)
        | (cases h; exact ha)
  · rw [(core_next h).1 a hb]; exact ha

/-- The `RecvRef` has not been dropped or forgotten. -/
def RefPC.live : RefPC → Bool
  | .held | .toNotify | .notifying _ => true
  | _ => false

def RPC.closing? : RPC W → Bool
  | .toClose _ | .closing _ | .toQClose | .qclose _ | .gone => true
  | _ => false

structure RInv (s : State w V W) : Prop where
  done : ∀ a, s.ref a ≠ .off → popDone (s.core.pc a) = true
  refs : ∀ a, a ∈ s.refs ↔ (s.ref a).live = true
  closing : s.rx.closing? = true → s.refs = []

theorem RInv.same {t : State w V W} (h : RInv s) (h1 : t.ref = s.ref) (h2 : t.refs = s.refs)
    (h3 : ∀ a, popDone (s.core.pc a) = true → popDone (t.core.pc a) = true) (h4 : t.rx.closing? = true → s.refs = []) : RInv t :=
  ⟨fun a ha => h3 a (h.done a (by rwa [h1] at ha)), by rw [h1, h2]; exact h.refs, by rw [h2]; exact h4⟩

theorem RInv.refgoto {a : OpId} {p : RefPC} (h : RInv s) (h1 : (s.ref a).live = p.live) (h2 : s.ref a ≠ .off)
    {s1 : Thingbuf.State w V} (h3 : ∀ a, popDone (s.core.pc a) = true → popDone (s1.pc a) = true) :
    RInv { s.refgoto a p with core := s1 } := by
  refine ⟨?_, ?_, h.closing⟩
  · intro b hb
    by_cases e : b = a
    · subst e; exact h3 _ (h.done _ h2)
    · simp only [State.refgoto, upd_ne _ _ e] at hb; exact h3 _ (h.done b hb)
  · intro b
    by_cases e : b = a
    · subst e; simp [State.refgoto, ← h1, h.refs]
    · simp [State.refgoto, upd_ne _ _ e, h.refs]

theorem RInv.refEnd {a : OpId} {p : RefPC} (h : RInv s) (h1 : p.live = false) (h2 : s.ref a ≠ .off) : RInv (s.refEnd a p) := by
  refine ⟨?_, ?_, ?_⟩
  · intro b hb
    by_cases e : b = a
    · subst e; exact h.done _ h2
    · simp only [State.refEnd, State.refgoto, upd_ne _ _ e] at hb; exact h.done b hb
  · intro b
    by_cases e : b = a
    · subst e; simp [State.refEnd, State.refgoto, h1]
    · simp [State.refEnd, State.refgoto, upd_ne _ _ e, h.refs, e]
  · intro hc
    have := h.closing hc
    simp [State.refEnd, this]

theorem RInv.got {a : OpId} {p : Option W} (h : RInv s)
    {s1 : Thingbuf.State w V} (h3 : ∀ a, popDone (s.core.pc a) = true → popDone (s1.pc a) = true)
    (h4 : coreKind (s1.pc a) = some .popHeld) : RInv { (s.newRef a).rgoto (.idle p) with core := s1 } := by
  refine ⟨?_, ?_, fun h => by cases h⟩
  · intro b hb
    by_cases e : b = a
    · subst e
      cases hp : s1.pc b <;> simp [hp, coreKind, popDone] at h4 ⊢
    · simp only [State.newRef, State.rgoto, State.refgoto, upd_ne _ _ e] at hb; exact h3 _ (h.done b hb)
  · intro b
    by_cases e : b = a
    · subst e; simp [State.newRef, State.rgoto, State.refgoto, RefPC.live]
    · simp [State.newRef, State.rgoto, State.refgoto, upd_ne _ _ e, h.refs, e]

theorem RInv.core {s1 : Thingbuf.State w V} {act : Thingbuf.Act V} {evs : List (Event V)} {t : State w V W} {es : List (Api W)}
    (h : RInv s) (ho : CoreOwns s) (h1 : Thingbuf.step c.cap s.core act = some (s1, evs)) (hm : CoreMove c s act (coreRet evs) t es) :
    RInv { t with core := s1 } := by
  have hd := fun a => popDone_step (a := a) h1
  have hn := (core_next h1).2
  generalize coreRet evs = r at hm hn
  cases hm with
  | tryOk a p spur hp | popSome a v spur hp | pop2Some a v spur hp | lastSome a spur hp =>
    have hk : coreKind (s.core.pc a) = some .pop := ho.sat .rx a .pop (by simp [coreClaim, claimOf, hp, rxCore])
    have hn := next_runAct hn
    simp only [actOp_runAct, hk] at hn
    exact h.got hd ((hn.2.1 rfl).2.1 rfl)
  | dropRecv a r hp => exact h.refgoto (by rw [hp]; rfl) (by rw [hp]; simp) hd
  | rxClose pan o r hp => exact h.same rfl rfl hd fun _ => h.closing (by rw [hp]; rfl)
  | rxClosed a hp => exact h.same rfl rfl hd fun _ => h.closing (by rw [hp]; rfl)
  | rxSkip a r hp => exact h.same rfl rfl hd fun _ => h.closing (by rw [hp]; rfl)
  | _ => exact h.same rfl rfl hd fun hc => by first | exact h.closing hc | cases hc

theorem ExecM.rinv {m : Bool} (h : ExecM m c tr s) : RInv s := by
  induction h with
  | stale hm he hs ih => exact ih.same rfl rfl (fun _ h => h) ih.closing
  | mem core cell hm he h1 h2 ih => exact ih.same rfl rfl (fun a h => by simpa only [h1] using h) ih.closing
  | init => exact ⟨fun a ha => absurd rfl ha, fun a => by simp [State.init, RefPC.live], fun h => by cases h⟩
  | @step tr s s' act evs he hs ih =>
    cases step_tr hs with
    | core h1 hm => exact ih.core he.coreOwns h1 hm
    | api hm =>
      cases hm with
      | forgetRecv a hp => exact ih.refEnd rfl (by rw [hp]; simp)
      | poll => exact ih.same rfl rfl (fun _ h => h) (fun hc => by cases hc)
      | dropRx p pan hp hr => exact ih.same rfl rfl (fun _ h => h) (fun _ => hr)
      | _ => exact ih.same rfl rfl (fun _ h => h) ih.closing
    | cell h1 hm =>
      cases hm <;> exact ih.same rfl rfl (fun _ h => h) fun hc => by first | exact ih.closing hc | cases hc
    | queue h1 hm =>
      cases hm with
      | notify a o evs hp => exact (ih.refgoto (by rw [hp]; rfl) (by rw [hp]; simp) (fun _ h => h)).same rfl rfl (fun _ h => h) ih.closing
      | notifyEnd a o sp evs hp =>
        have := ih.refEnd (a := a) (p := .done) rfl (by rw [hp]; simp)
        exact this.same rfl rfl (fun _ h => h) fun hc => this.closing hc
      | close o evs hp => exact ih.same rfl rfl (fun _ h => h) fun _ => ih.closing (by rw [hp]; rfl)
      | closeEnd o sp evs hp => exact ih.same rfl rfl (fun _ h => h) fun _ => ih.closing (by rw [hp]; rfl)
      | _ => exact ih.same rfl rfl (fun _ h => h) fun hc => by first | exact ih.closing hc | cases hc

theorem ref_off_of_pop {a : OpId} (h : RInv s) (ho : CoreOwns s) (hx : rxCore s.rx = some (a, .pop)) : s.ref a = .off := by
  apply Classical.byContradiction
  intro hn
  have h1 := h.done a hn
  have h2 := ho.sat .rx a .pop hx
  cases hp : s.core.pc a <;> simp [hp, coreKind, popDone] at h1 h2

/-! ### The wait cell -/

/-- Kinds of operations of the wait cell in progress. -/
inductive LK where
  | wait | notify
  deriving DecidableEq

def cellKind : Cell.PC W → Option LK
  | .idle | .done => none
  | .notifyStart _ | .notifyTake | .notifyTaking | .notifyClear _ | .notifyWake _ => some .notify
  | _ => some .wait

def sndCell : SPC → Option (Nat × LK)
  | .notifying o => some (o, .notify)
  | _ => none

def rxCell : RPC W → Option (Nat × LK)
  | .wait o _ => some (o, .wait)
  | _ => none

def closerCell : CPC → Option (Nat × LK)
  | .closeTx o => some (o, .notify)
  | _ => none

def refCell (_ : OpId) (_ : RefPC) : Option (Nat × LK) := none

def cellClaim (s : State w V W) : Agent → Option (Nat × LK) := claimOf sndCell rxCell closerCell refCell s

def CellOwns (s : State w V W) : Prop := Owns (cellClaim s) fun a => cellKind (s.cell.pc a)

def cellOp : Cell.Act W → OpId
  | .callWait a | .callNotify a _ | .run a | .mk a _ | .mkPanic a => a

def CellNext (act : Cell.Act W) (k : Option LK) (evs : List (Cell.Event W)) (k' : Option LK) : Prop :=
  match act with
  | .callWait _ => k = none ∧ k' = some .wait
  | .callNotify _ _ => k = none ∧ k' = some .notify
  | .run _ | .mk _ _ => (k = some .wait → (waitRet evs = none → k' = some .wait) ∧ (waitRet evs ≠ none → k' = none)) ∧
      (k = some .notify → (notifyOver evs = false → k' = some .notify) ∧ (notifyOver evs = true → k' = none))
  | .mkPanic _ => True

theorem cell_next {cf : Cell.Config} {s s' : Cell.State W} {act : Cell.Act W} {evs : List (Cell.Event W)}
    (h : Cell.step cf s act = some (s', evs)) :
    (∀ b, b ≠ cellOp act → s'.pc b = s.pc b) ∧
    CellNext act (cellKind (s.pc (cellOp act))) evs (cellKind (s'.pc (cellOp act))) := by
  cases act with
  | callWait a =>
    simp only [Cell.step] at h
    split at h <;> cases h
    rename_i hp
    refine ⟨fun b hb => if_neg hb, ?_⟩
    simp [CellNext, cellOp, hp, cellKind, Cell.State.goto]
  | callNotify a x =>
    simp only [Cell.step] at h
    split at h <;> cases h
    rename_i hp
    refine ⟨fun b hb => if_neg hb, ?_⟩
    simp [CellNext, cellOp, hp, cellKind, Cell.State.goto]
  | run a =>
    simp only [Cell.step, Cell.runStep] at h
    split at h <;> try (cases h; done)
    all_goals rename_i hp
    all_goals try simp only [Cell.waitStart, Cell.waitUnlock, Cell.waitReset, Cell.waitWake, Cell.notifyStart, Option.some.injEq] at h
    all_goals
      repeat' split at h
      all_goals first
        | (cases h; refine ⟨fun b hb => if_neg hb, ?_⟩
           simp [CellNext, cellOp, hp, cellKind, Cell.State.goto, waitRet, notifyOver]; done)
        | (cases h; refine ⟨fun b hb => if_neg hb, ?_⟩
           simp only [CellNext, cellOp, hp, cellKind, Cell.State.goto]
           repeat' split
           all_goals simp [waitRet, notifyOver]; done)
  | mk a v =>
    simp only [Cell.step] at h
    split at h <;> cases h
    all_goals rename_i hp
    all_goals refine ⟨fun b hb => if_neg hb, ?_⟩
    all_goals simp [CellNext, cellOp, hp, cellKind, Cell.State.goto, waitRet, notifyOver]
  | mkPanic a =>
    simp only [Cell.step] at h
    repeat' split at h
    all_goals cases h
    all_goals exact ⟨fun b hb => if_neg hb, trivial⟩

@[simp] theorem cellOp_wait (s : State w V W) (o : OpId) (v : W) : cellOp (waitAct s o v) = o := by
  simp only [waitAct]; split <;> rfl

theorem next_wait {o : OpId} {v : W} {k k'} {evs} (h : CellNext (waitAct s o v) k evs k') :
    (k = some .wait → (waitRet evs = none → k' = some .wait) ∧ (waitRet evs ≠ none → k' = none)) := by
  revert h
  simp only [waitAct]; split <;> exact fun h => h.1

theorem CellOwns.move {s1 : Cell.State W} {act : Cell.Act W} {evs : List (Cell.Event W)} {t : State w V W}
    (h : CellOwns s) (h1 : Cell.step c.cell s.cell act = some (s1, evs)) (x : Agent)
    (hx : cellClaim s x = (cellKind (s.cell.pc (cellOp act))).map (cellOp act, ·)) (hs : Same x s t)
    (hx' : cellClaim t x = (cellKind (s1.pc (cellOp act))).map (cellOp act, ·)) : CellOwns { t with cell := s1 } :=
  Owns.move h x (cellOp act) hx (fun b hb => by simp only [(cell_next h1).1 b hb]) (fun y hy => hs.claim y hy) hx'

theorem CellOwns.cell {s1 : Cell.State W} {act : Cell.Act W} {evs : List (Cell.Event W)} {t : State w V W} {es : List (Api W)}
    (h : CellOwns s) (h1 : Cell.step c.cell s.cell act = some (s1, evs)) (hm : CellMove c s act evs t es) :
    CellOwns { t with cell := s1 } := by
  have hn := (cell_next h1).2
  have hsat := fun x a k hx => h.sat x a k hx
  cases hm with
  | cCall o evs hp =>
    refine h.move h1 .closer ?_ (same_closer s _) ?_
    · have := hn.1; simp [this, cellClaim, claimOf, hp, closerCell]
    · have := hn.2; rw [this]; rfl
  | notify k o evs hp =>
    refine h.move h1 (.snd k) ?_ (same_sgoto s k _) ?_
    · have := hn.1; simp [this, cellClaim, claimOf, hp, sndCell]
    · have := hn.2; rw [this]; simp [cellClaim, claimOf, sndCell, cellOp]
  | wait v o evs hp =>
    refine h.move h1 .rx ?_ (same_rgoto s _) ?_
    · have := hn.1; simp [this, cellClaim, claimOf, hp, rxCell]
    · have := hn.2; rw [this]; rfl
  | cStay o evs hp hr =>
    have hk := hsat .closer o .notify (by simp [cellClaim, claimOf, hp, closerCell])
    refine h.move h1 .closer ?_ (.refl ..) ?_
    · simp [cellOp, hk, cellClaim, claimOf, hp, closerCell]
    · rw [(hn.2 hk).1 hr]; simp [cellOp, cellClaim, claimOf, hp, closerCell]
  | cEnd o evs hp hr =>
    have hk := hsat .closer o .notify (by simp [cellClaim, claimOf, hp, closerCell])
    refine h.move h1 .closer ?_ (same_closer s _) ?_
    · simp [cellOp, hk, cellClaim, claimOf, hp, closerCell]
    · rw [(hn.2 hk).2 hr]; rfl
  | notifyStay k o evs hp hr =>
    have hk := hsat (.snd k) o .notify (by simp [cellClaim, claimOf, hp, sndCell])
    refine h.move h1 (.snd k) ?_ (.refl ..) ?_
    · simp [cellOp, hk, cellClaim, claimOf, hp, sndCell]
    · rw [(hn.2 hk).1 hr]; simp [cellOp, cellClaim, claimOf, hp, sndCell]
  | notifyEnd k o evs hp hr =>
    have hk := hsat (.snd k) o .notify (by simp [cellClaim, claimOf, hp, sndCell])
    refine h.move h1 (.snd k) ?_ (same_sendEnd s k _) ?_
    · simp [cellOp, hk, cellClaim, claimOf, hp, sndCell]
    · rw [(hn.2 hk).2 hr]; simp [cellClaim, claimOf, sndCell]
  | waitStay o v evs hp hr =>
    have hk := hsat .rx o .wait (by simp [cellClaim, claimOf, hp, rxCell])
    refine h.move h1 .rx ?_ (.refl ..) ?_
    · simp [hk, cellClaim, claimOf, hp, rxCell]
    · rw [(next_wait hn (by rw [cellOp_wait]; exact hk)).1 hr]; simp [cellClaim, claimOf, hp, rxCell]
  | waitWait o v evs hp hr | waitClosed o v evs hp hr | waitNotified o v evs hp hr | waitPanic o v evs hp hr =>
    have hk := hsat .rx o .wait (by simp [cellClaim, claimOf, hp, rxCell])
    refine h.move h1 .rx ?_ (same_rgoto s _) ?_
    · simp [hk, cellClaim, claimOf, hp, rxCell]
    · rw [(next_wait hn (by rw [cellOp_wait]; exact hk)).2 (by simp [hr])]; rfl

theorem claim_got {K : Type} {fs : SPC → Option (Nat × K)} {fr : RPC W → Option (Nat × K)} {fc : CPC → Option (Nat × K)}
    {ff : OpId → RefPC → Option (Nat × K)} {a : OpId} {p : Option W} (hr : fr (.idle p) = fr s.rx)
    (hf : ff a .held = ff a (s.ref a)) (y : Agent) :
    claimOf fs fr fc ff ((s.newRef a).rgoto (.idle p)) y = claimOf fs fr fc ff s y := by
  cases y with
  | snd k => rfl
  | rx => exact hr
  | closer => rfl
  | ref b =>
    by_cases hb : b = a
    · subst hb
      simp [claimOf, State.rgoto, State.newRef, State.refgoto, hf]
    · simp [claimOf, State.rgoto, State.newRef, State.refgoto, upd_ne _ _ hb]

theorem cellClaim_api {t : State w V W} {e : Api W} (h : HInv s) (hm : ApiMove c s t e) (y : Agent) :
    cellClaim t y = cellClaim s y := by
  cases hm with
  | clone => exact Same.congr (x := y) ⟨fun _ _ => rfl, fun _ => rfl, fun _ => rfl, fun _ _ => rfl⟩ rfl y
  | dropTx => exact Same.congr (x := y) ⟨fun _ _ => rfl, fun _ => rfl, fun _ => rfl, fun _ _ => rfl⟩ rfl y
  | dropLast x pan h1 =>
    refine Same.congr (x := .closer) (s := s) (t := { s with handles := _, txCount := _, closer := .toClose pan }) ⟨fun _ _ => rfl, fun _ => rfl, fun h => absurd rfl h, fun _ _ => rfl⟩ ?_ y
    simp [claimOf, h.closer.2 (List.ne_nil_of_mem h1), closerCell]
  | forgetSend k a h => exact (same_sendEnd ..).congr (by simp [claimOf, h, sndCell]) y
  | poll p v h => exact (same_rgoto ..).congr (by simp [claimOf, h, rxCell, State.rgoto]) y
  | forgetRecv a h => exact (same_refEnd ..).congr (by simp [claimOf, h, refCell]) y
  | dropRx p pan h => exact (same_rgoto ..).congr (by simp [claimOf, h, rxCell, State.rgoto]) y

theorem cellClaim_core {t : State w V W} {act} {r} {es : List (Api W)} (hm : CoreMove c s act r t es) (y : Agent) :
    cellClaim t y = cellClaim s y := by
  cases hm with
  | cCall pan o r h => exact (same_closer ..).congr (by simp [claimOf, h, sndCell, rxCell, closerCell, refCell, State.rgoto]) y
  | cStay => rfl
  | cNext a r h h1 => exact (same_closer ..).congr (by simp [claimOf, h, sndCell, rxCell, closerCell, refCell, State.rgoto]) y
  | cSkip a r h h1 h2 => exact (same_closer ..).congr (by simp [claimOf, h, sndCell, rxCell, closerCell, refCell, State.rgoto]) y
  | send k x wait a r h1 h2 => exact (same_send ..).congr (by simp [claimOf, h1, sndCell, rxCell, closerCell, refCell, State.rgoto]) y
  | pushStay => rfl
  | pushOk k a att i h => exact (same_sgoto ..).congr (by simp [claimOf, h, sndCell, rxCell, closerCell, refCell, State.rgoto]) y
  | pushClosed k a att i h => exact (same_sendEnd ..).congr (by simp [claimOf, h, sndCell, rxCell, closerCell, refCell, State.rgoto]) y
  | fullOnly k a i h => exact (same_sendEnd ..).congr (by simp [claimOf, h, sndCell, rxCell, closerCell, refCell, State.rgoto]) y
  | fullStart k a i h => exact (same_sgoto ..).congr (by simp [claimOf, h, sndCell, rxCell, closerCell, refCell, State.rgoto]) y
  | fullBlocking k a i h h1 => exact (same_sgoto ..).congr (by simp [claimOf, h, sndCell, rxCell, closerCell, refCell, State.rgoto]) y
  | fullAsync k a i h h1 => exact (same_sgoto ..).congr (by simp [claimOf, h, sndCell, rxCell, closerCell, refCell, State.rgoto]) y
  | pushPanic k a att i r h h1 h2 h3 => exact (same_sendEnd ..).congr (by simp [claimOf, h, sndCell, rxCell, closerCell, refCell, State.rgoto]) y
  | retry k att a r h => exact (same_sgoto ..).congr (by simp [claimOf, h, sndCell, rxCell, closerCell, refCell, State.rgoto]) y
  | sendRead => rfl
  | sendWrite => rfl
  | dropSend k a r h => exact (same_sgoto ..).congr (by simp [claimOf, h, sndCell, rxCell, closerCell, refCell, State.rgoto]) y
  | tryRecv p a r h => exact (same_rgoto ..).congr (by simp [claimOf, h, sndCell, rxCell, closerCell, refCell, State.rgoto]) y
  | tryStay => rfl
  | tryOk a p spur h => exact claim_got (by simp [h, rxCell]) rfl y
  | tryClosed a p spur h => exact (same_rgoto ..).congr (by simp [claimOf, h, sndCell, rxCell, closerCell, refCell, State.rgoto]) y
  | tryEmpty a p spur r h h1 h2 => exact (same_rgoto ..).congr (by simp [claimOf, h, sndCell, rxCell, closerCell, refCell, State.rgoto]) y
  | toPop v o r h => exact (same_rgoto ..).congr (by simp [claimOf, h, sndCell, rxCell, closerCell, refCell, State.rgoto]) y
  | popStay => rfl
  | popSome a v spur h => exact claim_got (by simp [h, rxCell]) rfl y
  | popNone a v spur h => exact (same_rgoto ..).congr (by simp [claimOf, h, sndCell, rxCell, closerCell, refCell, State.rgoto]) y
  | popEmpty a v spur r h h1 h2 => exact (same_rgoto ..).congr (by simp [claimOf, h, sndCell, rxCell, closerCell, refCell, State.rgoto]) y
  | toPop2 v o r h => exact (same_rgoto ..).congr (by simp [claimOf, h, sndCell, rxCell, closerCell, refCell, State.rgoto]) y
  | pop2Stay => rfl
  | pop2Some a v spur h => exact claim_got (by simp [h, rxCell]) rfl y
  | pop2None a v spur h => exact (same_rgoto ..).congr (by simp [claimOf, h, sndCell, rxCell, closerCell, refCell, State.rgoto]) y
  | pop2Pending a v spur r h h1 h2 => exact (same_rgoto ..).congr (by simp [claimOf, h, sndCell, rxCell, closerCell, refCell, State.rgoto]) y
  | toLast o r h => exact (same_rgoto ..).congr (by simp [claimOf, h, sndCell, rxCell, closerCell, refCell, State.rgoto]) y
  | lastStay => rfl
  | lastSome a spur h => exact claim_got (by simp [h, rxCell]) rfl y
  | lastNone a spur r h h1 => exact (same_rgoto ..).congr (by simp [claimOf, h, sndCell, rxCell, closerCell, refCell, State.rgoto]) y
  | rxClose pan o r h => exact (same_rgoto ..).congr (by simp [claimOf, h, sndCell, rxCell, closerCell, refCell, State.rgoto]) y
  | rxStay => rfl
  | rxClosed a h => exact (same_rgoto ..).congr (by simp [claimOf, h, sndCell, rxCell, closerCell, refCell, State.rgoto]) y
  | rxSkip a r h h1 => exact (same_rgoto ..).congr (by simp [claimOf, h, sndCell, rxCell, closerCell, refCell, State.rgoto]) y
  | recvRead => rfl
  | recvWrite => rfl
  | dropRecv a r h => exact (same_refgoto ..).congr (by simp [claimOf, h, sndCell, rxCell, closerCell, refCell, State.rgoto]) y

theorem cellClaim_queue {t : State w V W} {act} {r} {es : List (Api W)} (hm : QueueMove c s act r t es) (y : Agent) :
    cellClaim t y = cellClaim s y := by
  cases hm with
  | start k v evs h => exact (same_sgoto ..).congr (by simp [claimOf, h, sndCell]) y
  | cont k v evs h => exact (same_sgoto ..).congr (by rcases h with h | h <;> simp [claimOf, h, sndCell]) y
  | timeout k evs h => exact (same_sendEnd ..).congr (by simp [claimOf, h, sndCell]) y
  | startStay => rfl
  | startClosed k sp evs h => exact (same_sendEnd ..).congr (by simp [claimOf, h, sndCell]) y
  | startWait k sp evs h => exact (same_sgoto ..).congr (by simp [claimOf, h, sndCell]) y
  | startNotified k sp evs h => exact (same_sgoto ..).congr (by simp [claimOf, h, sndCell]) y
  | startPanic k sp evs r h => exact (same_sendEnd ..).congr (by simp [claimOf, h, sndCell]) y
  | contStay => rfl
  | contClosed k sp evs h => exact (same_sendEnd ..).congr (by simp [claimOf, h, sndCell]) y
  | contWait k sp evs h => exact (same_sgoto ..).congr (by simp [claimOf, h, sndCell]) y
  | contNotified k sp evs h => exact (same_sgoto ..).congr (by simp [claimOf, h, sndCell]) y
  | contPanic k sp evs r h => exact (same_sendEnd ..).congr (by simp [claimOf, h, sndCell]) y
  | cancel k evs h => exact (same_sgoto ..).congr (by simp [claimOf, h, sndCell]) y
  | dropStay => rfl
  | dropEnd k sp evs r h => exact (same_sendEnd ..).congr (by simp [claimOf, h, sndCell]) y
  | notify a o evs h => exact (same_refgoto ..).congr (by simp [claimOf, h, refCell]) y
  | notifyStay => rfl
  | notifyEnd a o sp evs h => exact (same_refEnd ..).congr (by simp [claimOf, h, refCell]) y
  | close o evs h => exact (same_rgoto ..).congr (by simp [claimOf, h, rxCell, State.rgoto]) y
  | closeStay => rfl
  | closeEnd o sp evs h => exact (same_rgoto ..).congr (by simp [claimOf, h, rxCell, State.rgoto]) y

theorem ExecM.cellOwns {m : Bool} (h : ExecM m c tr s) : CellOwns s := by
  induction h with
  | stale hm he hs ih => exact Owns.congr ih (fun y => by cases y <;> rfl) fun _ => rfl
  | mem core cell hm he h1 h2 ih => exact Owns.congr ih (fun y => by cases y <;> rfl) fun a => by simp only [h2]
  | init =>
    constructor
    · intro x a k hx; cases x <;> cases hx
    · intro x y a k k' hx; cases x <;> cases hx
    · intro a k hk; cases hk
  | step he hs ih =>
    cases step_tr hs with
    | api hm => exact Owns.congr ih (cellClaim_api he.hinv hm) fun a => by rw [hm.frame.2.1]
    | core h1 hm => exact Owns.congr ih (fun y => cellClaim_core hm y) fun a => by simp only [hm.frame.1]
    | cell h1 hm => exact ih.cell h1 hm
    | queue h1 hm => exact Owns.congr ih (fun y => cellClaim_queue hm y) fun a => by simp only [hm.frame.2]

/-! ### The operations of the wait queue -/

/-- Kinds of operations of the wait queue in progress. -/
inductive QK where
  | notify | close
  deriving DecidableEq

def queueKind : Queue.PC W → Option QK
  | .nLoad | .nLoop _ | .nLock _ | .nMatch _ | .nForce | .nStore _ | .nUnlock _ | .nWake _ _ => some .notify
  | .cSwap | .cLock | .cLoop | .cWake _ _ => some .close
  | _ => none

def sndQueue (_ : SPC) : Option (Nat × QK) := none

def rxQueue : RPC W → Option (Nat × QK)
  | .qclose o => some (o, .close)
  | _ => none

def closerQueue (_ : CPC) : Option (Nat × QK) := none

def refQueue (_ : OpId) : RefPC → Option (Nat × QK)
  | .notifying o => some (o, .notify)
  | _ => none

def queueClaim (s : State w V W) : Agent → Option (Nat × QK) := claimOf sndQueue rxQueue closerQueue refQueue s

def QueueOwns (s : State w V W) : Prop := Owns (queueClaim s) fun o => queueKind (s.queue.pc (.op o))

/-- The thread that takes the step. -/
def queueTid : Queue.Act W → Queue.Tid
  | .start n _ | .cont n _ | .drop n | .giveUp n | .node n _ => .node n
  | .notify o | .close o | .op o _ => .op o

/-- What a step of the owner of a node does to its control state. -/
def NodeNext : Queue.PC W → List (Queue.Event W) → Queue.PC W → Prop := fun p evs p' =>
  (startPC p = true → match nodeRet evs with
    | none => startPC p' = true
    | some (.ret .wait) => p' = .idle .waiting
    | some (.ret .closed) => p' = .idle .closed
    | some (.ret .notified) => p' = .idle .startNotified
    | some .panicked => p' = .panicked
    | some .freed => False) ∧
  (contPC p = true → match nodeRet evs with
    | none => contPC p' = true
    | some (.ret .wait) => p' = .idle .waiting
    | some (.ret .closed) => p' = .idle .closed
    | some (.ret .notified) => p' = .idle .contNotified
    | some .panicked => p' = .panicked
    | some .freed => False) ∧
  (remPC p = true → match nodeRet evs with
    | none => remPC p' = true
    | some .freed => p' = .gone
    | some .panicked => p' = .panicked
    | _ => False)
where
  startPC : Queue.PC W → Bool
    | .startCas _ | .startLock _ | .startLoad _ | .startLoop _ _ | .startSet _ | .startEnq _ => true
    | _ => false
  contPC : Queue.PC W → Bool
    | .contLoad _ | .contLock _ | .contReload _ | .contUpd _ => true
    | _ => false
  remPC : Queue.PC W → Bool
    | .remCheck | .remLock | .remList | .remCas | .remUnlock => true
    | _ => false

def QueueNext (act : Queue.Act W) (p : Queue.PC W) (evs : List (Queue.Event W)) (p' : Queue.PC W) : Prop :=
  match act with
  | .start _ _ => (∃ l, p = .idle l ∧ l.mayStart = true) ∧ NodeNext.startPC p' = true
  | .cont _ _ => (∃ l, p = .idle l ∧ l.mayCont = true) ∧ NodeNext.contPC p' = true
  | .drop _ => (∃ l, p = .idle l) ∧ (p = .idle .waiting → NodeNext.remPC p' = true)
  | .giveUp _ => p' = .abandoned
  | .node _ _ => NodeNext p evs p'
  | .notify _ => queueKind p = none ∧ queueKind p' = some .notify
  | .close _ => queueKind p = none ∧ queueKind p' = some .close
  | .op _ _ => (opOver evs = false → queueKind p' = queueKind p) ∧ (opOver evs = true → queueKind p' = none)

@[simp] theorem nodeRet_touch (t : Queue.Tid) (l : List Nat) (evs : List (Queue.Event W)) :
    nodeRet (l.map (.touch t) ++ evs) = nodeRet evs := by
  induction l <;> simp_all [nodeRet]
@[simp] theorem opOver_touch (t : Queue.Tid) (l : List Nat) (evs : List (Queue.Event W)) :
    opOver (l.map (.touch t) ++ evs) = opOver evs := by
  induction l <;> simp_all [opOver]
theorem opOver_append (l evs : List (Queue.Event W)) : opOver (l ++ evs) = (opOver l || opOver evs) := List.any_append
@[simp] theorem opOver_deq (o : Nat) (v : Option (Nat × Option W)) : opOver (Queue.deqEvents o v) = false := by
  unfold Queue.deqEvents
  split <;> rfl

theorem queue_next {cf : Queue.Config W} {s s' : Queue.State W} {act : Queue.Act W} {evs : List (Queue.Event W)}
    (h : Queue.step cf s act = some (s', evs)) :
    (∀ b, b ≠ queueTid act → s'.pc b = s.pc b) ∧ QueueNext act (s.pc (queueTid act)) evs (s'.pc (queueTid act)) := by
  cases act with
  | start n v =>
    simp only [Queue.step] at h
    repeat' split at h
    all_goals cases h
    rename_i l hp hl
    refine ⟨fun b hb => if_neg hb, ?_⟩
    simp [QueueNext, queueTid, hp, hl, Queue.State.goto, NodeNext.startPC]
  | cont n v =>
    simp only [Queue.step] at h
    repeat' split at h
    all_goals cases h
    rename_i l hp hl
    refine ⟨fun b hb => if_neg hb, ?_⟩
    simp [QueueNext, queueTid, hp, hl, Queue.State.goto, NodeNext.contPC]
  | drop n =>
    simp only [Queue.step] at h
    repeat' split at h
    all_goals cases h
    all_goals rename_i hp
    all_goals refine ⟨fun b hb => if_neg hb, ?_⟩
    all_goals simp [QueueNext, queueTid, hp, Queue.State.goto, NodeNext.remPC]
    assumption
  | giveUp n =>
    simp only [Queue.step] at h
    repeat' split at h
    all_goals cases h
    exact ⟨fun b hb => if_neg hb, by simp [QueueNext, queueTid, Queue.State.goto]⟩
  | notify o =>
    simp only [Queue.step] at h
    repeat' split at h
    all_goals cases h
    rename_i hp _
    refine ⟨fun b hb => if_neg hb, ?_⟩
    simp [QueueNext, queueTid, hp, Queue.State.goto, queueKind]
  | close o =>
    simp only [Queue.step] at h
    repeat' split at h
    all_goals cases h
    rename_i hp _ _
    refine ⟨fun b hb => if_neg hb, ?_⟩
    simp [QueueNext, queueTid, hp, Queue.State.goto, queueKind]
  | node n spur =>
    simp only [Queue.step, Queue.nodeStep] at h
    split at h <;> try (cases h; done)
    all_goals rename_i hp
    all_goals try simp only [Queue.startCas, Queue.acquire, Queue.startLoop, Queue.startSet, Queue.startEnq, Queue.contLoad,
      Queue.contReload, Queue.contUpd, Queue.remCheck, Queue.remList, Queue.remCas, Queue.fail, Option.some.injEq] at h
    all_goals
      repeat' split at h
      all_goals first
        | (cases h; done)
        | (cases h; refine ⟨fun b hb => if_neg hb, ?_⟩
           simp [QueueNext, NodeNext, NodeNext.startPC, NodeNext.contPC, NodeNext.remPC, queueTid, hp, Queue.State.goto,
             Queue.State.unlock, nodeRet_touch, List.append_assoc, -List.map_append]
           try simp [nodeRet]
           done)
  | op o spur =>
    simp only [Queue.step, Queue.opStep] at h
    split at h <;> try (cases h; done)
    all_goals rename_i hp
    all_goals try simp only [Queue.nLoop, Queue.acquire, Queue.nMatch, Queue.nStore, Queue.nUnlock, Queue.cLoop,
      Queue.fail, Option.some.injEq] at h
    all_goals
      repeat' split at h
      all_goals first
        | (cases h; done)
        | (cases h; refine ⟨fun b hb => if_neg hb, ?_⟩
           simp [QueueNext, queueTid, hp, Queue.State.goto, Queue.State.endNotify, queueKind,
             Queue.State.unlock, opOver_touch, opOver_append, List.append_assoc, -List.map_append]
           try simp [opOver]
           done)

theorem queueClaim_api {t : State w V W} {e : Api W} (h : HInv s) (hm : ApiMove c s t e) (y : Agent) :
    queueClaim t y = queueClaim s y := by
  cases hm with
  | clone => exact Same.congr (x := y) ⟨fun _ _ => rfl, fun _ => rfl, fun _ => rfl, fun _ _ => rfl⟩ rfl y
  | dropTx => exact Same.congr (x := y) ⟨fun _ _ => rfl, fun _ => rfl, fun _ => rfl, fun _ _ => rfl⟩ rfl y
  | dropLast x pan h1 =>
    refine Same.congr (x := .closer) (s := s) (t := { s with handles := _, txCount := _, closer := .toClose pan }) ⟨fun _ _ => rfl, fun _ => rfl, fun h => absurd rfl h, fun _ _ => rfl⟩ ?_ y
    simp [claimOf, h.closer.2 (List.ne_nil_of_mem h1), closerQueue]
  | forgetSend k a h => exact (same_sendEnd ..).congr (by simp [claimOf, h, sndQueue]) y
  | poll p v h => exact (same_rgoto ..).congr (by simp [claimOf, h, rxQueue, State.rgoto]) y
  | forgetRecv a h => exact (same_refEnd ..).congr (by simp [claimOf, h, refQueue]) y
  | dropRx p pan h => exact (same_rgoto ..).congr (by simp [claimOf, h, rxQueue, State.rgoto]) y

theorem queueClaim_core {t : State w V W} {act} {r} {es : List (Api W)} (h0 : RInv s) (ho : CoreOwns s)
    (hm : CoreMove c s act r t es) (y : Agent) :
    queueClaim t y = queueClaim s y := by
  cases hm with
  | cCall pan o r h => exact (same_closer ..).congr (by simp [claimOf, h, sndQueue, rxQueue, closerQueue, refQueue, State.rgoto]) y
  | cStay => rfl
  | cNext a r h h1 => exact (same_closer ..).congr (by simp [claimOf, h, sndQueue, rxQueue, closerQueue, refQueue, State.rgoto]) y
  | cSkip a r h h1 h2 => exact (same_closer ..).congr (by simp [claimOf, h, sndQueue, rxQueue, closerQueue, refQueue, State.rgoto]) y
  | send k x wait a r h1 h2 => exact (same_send ..).congr (by simp [claimOf, h1, sndQueue, rxQueue, closerQueue, refQueue, State.rgoto]) y
  | pushStay => rfl
  | pushOk k a att i h => exact (same_sgoto ..).congr (by simp [claimOf, h, sndQueue, rxQueue, closerQueue, refQueue, State.rgoto]) y
  | pushClosed k a att i h => exact (same_sendEnd ..).congr (by simp [claimOf, h, sndQueue, rxQueue, closerQueue, refQueue, State.rgoto]) y
  | fullOnly k a i h => exact (same_sendEnd ..).congr (by simp [claimOf, h, sndQueue, rxQueue, closerQueue, refQueue, State.rgoto]) y
  | fullStart k a i h => exact (same_sgoto ..).congr (by simp [claimOf, h, sndQueue, rxQueue, closerQueue, refQueue, State.rgoto]) y
  | fullBlocking k a i h h1 => exact (same_sgoto ..).congr (by simp [claimOf, h, sndQueue, rxQueue, closerQueue, refQueue, State.rgoto]) y
  | fullAsync k a i h h1 => exact (same_sgoto ..).congr (by simp [claimOf, h, sndQueue, rxQueue, closerQueue, refQueue, State.rgoto]) y
  | pushPanic k a att i r h h1 h2 h3 => exact (same_sendEnd ..).congr (by simp [claimOf, h, sndQueue, rxQueue, closerQueue, refQueue, State.rgoto]) y
  | retry k att a r h => exact (same_sgoto ..).congr (by simp [claimOf, h, sndQueue, rxQueue, closerQueue, refQueue, State.rgoto]) y
  | sendRead => rfl
  | sendWrite => rfl
  | dropSend k a r h => exact (same_sgoto ..).congr (by simp [claimOf, h, sndQueue, rxQueue, closerQueue, refQueue, State.rgoto]) y
  | tryRecv p a r h => exact (same_rgoto ..).congr (by simp [claimOf, h, sndQueue, rxQueue, closerQueue, refQueue, State.rgoto]) y
  | tryStay => rfl
  | tryOk a p spur h => exact claim_got (by simp [h, rxQueue]) (by rw [ref_off_of_pop h0 ho (by simp [h, rxCore])]; rfl) y
  | tryClosed a p spur h => exact (same_rgoto ..).congr (by simp [claimOf, h, sndQueue, rxQueue, closerQueue, refQueue, State.rgoto]) y
  | tryEmpty a p spur r h h1 h2 => exact (same_rgoto ..).congr (by simp [claimOf, h, sndQueue, rxQueue, closerQueue, refQueue, State.rgoto]) y
  | toPop v o r h => exact (same_rgoto ..).congr (by simp [claimOf, h, sndQueue, rxQueue, closerQueue, refQueue, State.rgoto]) y
  | popStay => rfl
  | popSome a v spur h => exact claim_got (by simp [h, rxQueue]) (by rw [ref_off_of_pop h0 ho (by simp [h, rxCore])]; rfl) y
  | popNone a v spur h => exact (same_rgoto ..).congr (by simp [claimOf, h, sndQueue, rxQueue, closerQueue, refQueue, State.rgoto]) y
  | popEmpty a v spur r h h1 h2 => exact (same_rgoto ..).congr (by simp [claimOf, h, sndQueue, rxQueue, closerQueue, refQueue, State.rgoto]) y
  | toPop2 v o r h => exact (same_rgoto ..).congr (by simp [claimOf, h, sndQueue, rxQueue, closerQueue, refQueue, State.rgoto]) y
  | pop2Stay => rfl
  | pop2Some a v spur h => exact claim_got (by simp [h, rxQueue]) (by rw [ref_off_of_pop h0 ho (by simp [h, rxCore])]; rfl) y
  | pop2None a v spur h => exact (same_rgoto ..).congr (by simp [claimOf, h, sndQueue, rxQueue, closerQueue, refQueue, State.rgoto]) y
  | pop2Pending a v spur r h h1 h2 => exact (same_rgoto ..).congr (by simp [claimOf, h, sndQueue, rxQueue, closerQueue, refQueue, State.rgoto]) y
  | toLast o r h => exact (same_rgoto ..).congr (by simp [claimOf, h, sndQueue, rxQueue, closerQueue, refQueue, State.rgoto]) y
  | lastStay => rfl
  | lastSome a spur h => exact claim_got (by simp [h, rxQueue]) (by rw [ref_off_of_pop h0 ho (by simp [h, rxCore])]; rfl) y
  | lastNone a spur r h h1 => exact (same_rgoto ..).congr (by simp [claimOf, h, sndQueue, rxQueue, closerQueue, refQueue, State.rgoto]) y
  | rxClose pan o r h => exact (same_rgoto ..).congr (by simp [claimOf, h, sndQueue, rxQueue, closerQueue, refQueue, State.rgoto]) y
  | rxStay => rfl
  | rxClosed a h => exact (same_rgoto ..).congr (by simp [claimOf, h, sndQueue, rxQueue, closerQueue, refQueue, State.rgoto]) y
  | rxSkip a r h h1 => exact (same_rgoto ..).congr (by simp [claimOf, h, sndQueue, rxQueue, closerQueue, refQueue, State.rgoto]) y
  | recvRead => rfl
  | recvWrite => rfl
  | dropRecv a r h => exact (same_refgoto ..).congr (by simp [claimOf, h, sndQueue, rxQueue, closerQueue, refQueue, State.rgoto]) y

theorem queueClaim_cell {t : State w V W} {act} {r} {es : List (Api W)} (hm : CellMove c s act r t es) (y : Agent) :
    queueClaim t y = queueClaim s y := by
  cases hm with
  | cCall o evs h => exact (same_closer ..).congr (by simp [claimOf, h, closerQueue]) y
  | cStay => rfl
  | cEnd o evs h => exact (same_closer ..).congr (by simp [claimOf, h, closerQueue]) y
  | notify k o evs h => exact (same_sgoto ..).congr (by simp [claimOf, h, sndQueue]) y
  | notifyStay => rfl
  | notifyEnd k o evs h => exact (same_sendEnd ..).congr (by simp [claimOf, h, sndQueue]) y
  | wait v o evs h => exact (same_rgoto ..).congr (by simp [claimOf, h, rxQueue, State.rgoto]) y
  | waitStay => rfl
  | waitWait o v evs h => exact (same_rgoto ..).congr (by simp [claimOf, h, rxQueue, State.rgoto]) y
  | waitClosed o v evs h => exact (same_rgoto ..).congr (by simp [claimOf, h, rxQueue, State.rgoto]) y
  | waitNotified o v evs h => exact (same_rgoto ..).congr (by simp [claimOf, h, rxQueue, State.rgoto]) y
  | waitPanic o v evs h => exact (same_rgoto ..).congr (by simp [claimOf, h, rxQueue, State.rgoto]) y

theorem QueueOwns.move {s1 : Queue.State W} {act : Queue.Act W} {evs : List (Queue.Event W)} {t : State w V W} {o : Nat}
    (h : QueueOwns s) (h1 : Queue.step c.queue s.queue act = some (s1, evs)) (ho : queueTid act = .op o) (x : Agent)
    (hx : queueClaim s x = (queueKind (s.queue.pc (.op o))).map (o, ·)) (hs : Same x s t)
    (hx' : queueClaim t x = (queueKind (s1.pc (.op o))).map (o, ·)) : QueueOwns { t with queue := s1 } :=
  Owns.move h x o hx (fun b hb => by simp only [(queue_next h1).1 (.op b) (by rw [ho]; simpa using hb)])
    (fun y hy => hs.claim y hy) hx'

theorem QueueOwns.node {s1 : Queue.State W} {act : Queue.Act W} {evs : List (Queue.Event W)} {t : State w V W} {k : Nat}
    (h : QueueOwns s) (h1 : Queue.step c.queue s.queue act = some (s1, evs)) (ho : queueTid act = .node k)
    (hs : Same (.snd k) s t) : QueueOwns { t with queue := s1 } :=
  Owns.congr h (fun y => Same.congr hs rfl y) fun a => by simp only [(queue_next h1).1 (.op a) (by rw [ho]; simp)]

theorem QueueOwns.queue {s1 : Queue.State W} {act : Queue.Act W} {evs : List (Queue.Event W)} {t : State w V W} {es : List (Api W)}
    (h : QueueOwns s) (h1 : Queue.step c.queue s.queue act = some (s1, evs)) (hm : QueueMove c s act evs t es) :
    QueueOwns { t with queue := s1 } := by
  have hn := (queue_next h1).2
  have hsat := fun x a k hx => h.sat x a k hx
  cases hm with
  | start k => exact h.node h1 rfl (same_sgoto ..)
  | cont k => exact h.node h1 rfl (same_sgoto ..)
  | startStay k => exact h.node (k := k) h1 rfl (.refl ..)
  | contStay k => exact h.node (k := k) h1 rfl (.refl ..)
  | dropStay k => exact h.node (k := k) h1 rfl (.refl ..)
  | startWait | startNotified | contWait | contNotified | cancel => exact h.node h1 rfl (same_sgoto ..)
  | startClosed | startPanic | contClosed | contPanic | dropEnd | timeout => exact h.node h1 rfl (same_sendEnd ..)
  | notify a o evs hp =>
    refine h.move h1 rfl (.ref a) ?_ (same_refgoto s a _) ?_
    · have := hn.1; simp only [queueTid] at this; simp [this, queueClaim, claimOf, hp, refQueue]
    · have := hn.2; simp only [queueTid] at this; rw [this]; simp [queueClaim, claimOf, refQueue]
  | notifyStay a o spur evs hp hr =>
    have hk := hsat (.ref a) o .notify (by simp [queueClaim, claimOf, hp, refQueue])
    refine h.move h1 rfl (.ref a) ?_ (.refl ..) ?_
    · simp [hk, queueClaim, claimOf, hp, refQueue]
    · have := hn.1 hr; simp only [queueTid] at this; rw [this, hk]; simp [queueClaim, claimOf, hp, refQueue]
  | notifyEnd a o spur evs hp hr =>
    have hk := hsat (.ref a) o .notify (by simp [queueClaim, claimOf, hp, refQueue])
    refine h.move h1 rfl (.ref a) ?_ (same_refEnd s a _) ?_
    · simp [hk, queueClaim, claimOf, hp, refQueue]
    · have := hn.2 hr; simp only [queueTid] at this; rw [this]; simp [queueClaim, claimOf, refQueue]
  | close o evs hp =>
    refine h.move h1 rfl .rx ?_ (same_rgoto s _) ?_
    · have := hn.1; simp only [queueTid] at this; simp [this, queueClaim, claimOf, hp, rxQueue]
    · have := hn.2; simp only [queueTid] at this; rw [this]; rfl
  | closeStay o spur evs hp hr =>
    have hk := hsat .rx o .close (by simp [queueClaim, claimOf, hp, rxQueue])
    refine h.move h1 rfl .rx ?_ (.refl ..) ?_
    · simp [hk, queueClaim, claimOf, hp, rxQueue]
    · have := hn.1 hr; simp only [queueTid] at this; rw [this, hk]; simp [queueClaim, claimOf, hp, rxQueue]
  | closeEnd o spur evs hp hr =>
    have hk := hsat .rx o .close (by simp [queueClaim, claimOf, hp, rxQueue])
    refine h.move h1 rfl .rx ?_ (same_rgoto s _) ?_
    · simp [hk, queueClaim, claimOf, hp, rxQueue]
    · have := hn.2 hr; simp only [queueTid] at this; rw [this]; rfl

theorem _root_.Thingbuf.Queue.Stale.kind {q : Queue.State W} {t : Queue.Tid} {p : Queue.PC W} (h : Queue.Stale q t p) (a : Nat) :
    queueKind ((q.goto t p).pc (.op a)) = queueKind (q.pc (.op a)) := by
  cases h with
  | notify o q hp hq =>
    by_cases e : a = o
    · subst e; simp [Queue.State.goto, hp, queueKind]
    · simp [Queue.State.goto, e]
  | _ => simp [Queue.State.goto]

theorem ExecM.queueOwns {m : Bool} (h : ExecM m c tr s) : QueueOwns s := by
  induction h with
  | stale hm he hs ih => exact Owns.congr ih (fun y => by cases y <;> rfl) fun a => hs.kind a
  | mem core cell hm he h1 h2 ih => exact Owns.congr ih (fun y => by cases y <;> rfl) fun _ => rfl
  | init =>
    constructor
    · intro x a k hx; cases x <;> cases hx
    · intro x y a k k' hx; cases x <;> cases hx
    · intro a k hk; cases hk
  | step he hs ih =>
    cases step_tr hs with
    | api hm => exact Owns.congr ih (queueClaim_api he.hinv hm) fun a => by rw [hm.frame.2.2]
    | core h1 hm => exact Owns.congr ih (fun y => queueClaim_core he.rinv he.coreOwns hm y) fun a => by simp only [hm.frame.2]
    | cell h1 hm => exact Owns.congr ih (fun y => queueClaim_cell hm y) fun a => by simp only [hm.frame.2]
    | queue h1 hm => exact ih.queue h1 hm

/-! ### The nodes of the wait queue -/

/-- The state of the node of a send call, by the state of the call. -/
def nodeOk : SPC → Queue.PC W → Prop
  | .off, p | .push _ .only, p => p = .idle .fresh
  | .push _ .start, p | .retry .start, p | .toStart, p => ∃ l, p = .idle l ∧ l.mayStart = true
  | .push _ .queued, p | .retry .queued, p | .toCont, p => p = .idle .contNotified
  | .retry .only, _ => False
  | .starting, p => NodeNext.startPC p = true
  | .conting, p => NodeNext.contPC p = true
  | .dropping, p => NodeNext.remPC p = true
  | .waiting, p => p = .idle .waiting
  | _, p => p ≠ .idle .waiting ∧ NodeNext.startPC p = false ∧ NodeNext.contPC p = false ∧ NodeNext.remPC p = false

/-- A call that is over, or returned a `SendRef`. -/
def SPC.over : SPC → Bool
  | .held _ | .toNotify | .notifying _ | .forgotten _ | .done => true
  | _ => false

theorem nodeOk_over {p p' : SPC} {q : Queue.PC W} (h : nodeOk p q) (h1 : p'.over = true)
    (h2 : p ≠ .waiting ∧ p ≠ .starting ∧ p ≠ .conting ∧ p ≠ .dropping) : nodeOk p' q := by
  have : q ≠ .idle .waiting ∧ NodeNext.startPC q = false ∧ NodeNext.contPC q = false ∧ NodeNext.remPC q = false := by
    cases p <;> simp only [nodeOk] at h
    all_goals first
      | (rename_i a; cases a <;> simp only [nodeOk] at h)
      | (rename_i a b; cases b <;> simp only [nodeOk] at h)
      | skip
    all_goals first
      | (subst h; simp [NodeNext.startPC, NodeNext.contPC, NodeNext.remPC]; done)
      | (obtain ⟨l, rfl, h⟩ := h; cases l <;> simp [NodeNext.startPC, NodeNext.contPC, NodeNext.remPC, Queue.Last.mayStart] at h ⊢; done)
      | exact h
      | (simp at h2; done)
  cases p' <;> simp [SPC.over] at h1 <;> exact this

def NodesOk (s : State w V W) : Prop := ∀ k, nodeOk (s.snd k) (s.queue.pc (.node k))

theorem NodesOk.upd {k : Nat} {p : SPC} {q : Queue.State W} {t : State w V W} (h : NodesOk s) (h1 : ∀ j, j ≠ k → q.pc (.node j) = s.queue.pc (.node j))
    (h2 : nodeOk p (q.pc (.node k))) (h3 : t.snd = Thingbuf.upd s.snd k p) (h4 : t.queue = q) : NodesOk t := by
  intro j
  rw [h3, h4, upd_apply]
  split
  · rename_i e; subst e; exact h2
  · rename_i e; rw [h1 j e]; exact h j

theorem NodesOk.same {t : State w V W} (h : NodesOk s) (h1 : t.snd = s.snd) (h2 : ∀ j, t.queue.pc (.node j) = s.queue.pc (.node j)) : NodesOk t := by
  intro j; rw [h1, h2]; exact h j

theorem NodesOk.core {t : State w V W} {act} {r} {es : List (Api W)} (h : NodesOk s) (hm : CoreMove c s act r t es) : NodesOk t := by
  cases hm with
  | send k x wait a r hp => exact h.upd (k := k) (fun _ _ => rfl) (by have := h k; rw [hp] at this; cases wait <;> simp_all [nodeOk, Queue.Last.mayStart]) rfl rfl
  | pushOk k a att i hp => exact h.upd (k := k) (fun _ _ => rfl) (nodeOk_over (hp ▸ h k) rfl (by simp)) rfl rfl
  | pushClosed k a att i hp => exact h.upd (k := k) (fun _ _ => rfl) (nodeOk_over (hp ▸ h k) rfl (by simp)) rfl rfl
  | fullOnly k a i hp => exact h.upd (k := k) (fun _ _ => rfl) (nodeOk_over (hp ▸ h k) rfl (by simp)) rfl rfl
  | fullStart k a i hp => exact h.upd (k := k) (fun _ _ => rfl) (by have := h k; rw [hp] at this; exact this) rfl rfl
  | fullBlocking k a i hp => exact h.upd (k := k) (fun _ _ => rfl) (by have := h k; rw [hp] at this; exact this) rfl rfl
  | fullAsync k a i hp => exact h.upd (k := k) (fun _ _ => rfl) (by have := h k; rw [hp] at this; exact ⟨_, this, rfl⟩) rfl rfl
  | pushPanic k a att i r hp => exact h.upd (k := k) (fun _ _ => rfl) (nodeOk_over (hp ▸ h k) rfl (by simp)) rfl rfl
  | retry k att a r hp => exact h.upd (k := k) (fun _ _ => rfl) (by have := h k; rw [hp] at this; cases att <;> first | exact this | exact this.elim) rfl rfl
  | dropSend k a r hp => exact h.upd (k := k) (fun _ _ => rfl) (nodeOk_over (hp ▸ h k) rfl (by simp)) rfl rfl
  | _ => exact h.same rfl fun _ => rfl

theorem NodesOk.cell {t : State w V W} {act} {r} {es : List (Api W)} (h : NodesOk s) (hm : CellMove c s act r t es) : NodesOk t := by
  cases hm with
  | notify k o evs hp => exact h.upd (k := k) (fun _ _ => rfl) (nodeOk_over (hp ▸ h k) rfl (by simp)) rfl rfl
  | notifyEnd k o evs hp => exact h.upd (k := k) (fun _ _ => rfl) (nodeOk_over (hp ▸ h k) rfl (by simp)) rfl rfl
  | _ => exact h.same rfl fun _ => rfl

theorem NodesOk.queue {s1 : Queue.State W} {act : Queue.Act W} {evs : List (Queue.Event W)} {t : State w V W} {es : List (Api W)}
    (h : NodesOk s) (h1 : Queue.step c.queue s.queue act = some (s1, evs)) (hm : QueueMove c s act evs t es) :
    NodesOk { t with queue := s1 } := by
  have hn := (queue_next h1).2
  have ho : ∀ k, queueTid act = .node k → ∀ j, j ≠ k → s1.pc (.node j) = s.queue.pc (.node j) := fun k hk j hj =>
    (queue_next h1).1 _ (by rw [hk]; simpa using hj)
  have hop : ∀ o, queueTid act = .op o → ∀ j, s1.pc (.node j) = s.queue.pc (.node j) := fun o hk j =>
    (queue_next h1).1 _ (by rw [hk]; simp)
  cases hm with
  | start k v evs hp => exact h.upd (p := .starting) (ho k rfl) hn.2 rfl rfl
  | cont k v evs hp => exact h.upd (p := .conting) (ho k rfl) hn.2 rfl rfl
  | timeout k evs hp =>
    refine h.upd (p := .done) (ho k rfl) ?_ rfl rfl
    simp only [QueueNext, queueTid] at hn
    simp [hn, nodeOk, NodeNext.startPC, NodeNext.contPC, NodeNext.remPC]
  | cancel k evs hp =>
    refine h.upd (p := .dropping) (ho k rfl) (hn.2 ?_) rfl rfl
    have := h k; rw [hp] at this; exact this
  | startStay k spur evs hp hr =>
    have hk := h k; rw [hp] at hk
    have := hn.1 hk; rw [hr] at this
    exact h.upd (k := k) (p := .starting) (ho k rfl) this (by rw [← hp]; exact (upd_same ..).symm) rfl
  | contStay k spur evs hp hr =>
    have hk := h k; rw [hp] at hk
    have := hn.2.1 hk; rw [hr] at this
    exact h.upd (k := k) (p := .conting) (ho k rfl) this (by rw [← hp]; exact (upd_same ..).symm) rfl
  | dropStay k spur evs hp hr =>
    have hk := h k; rw [hp] at hk
    have := hn.2.2 hk; rw [hr] at this
    exact h.upd (k := k) (p := .dropping) (ho k rfl) this (by rw [← hp]; exact (upd_same ..).symm) rfl
  | startClosed k spur evs hp hr =>
    have hk := h k; rw [hp] at hk
    have := hn.1 hk; rw [hr] at this
    exact h.upd (k := k) (ho k rfl) (by simp only [queueTid] at this; rw [this]; simp [nodeOk, NodeNext.startPC, NodeNext.contPC, NodeNext.remPC]) rfl rfl
  | startWait k spur evs hp hr =>
    have hk := h k; rw [hp] at hk
    have := hn.1 hk; rw [hr] at this
    exact h.upd (k := k) (p := .waiting) (ho k rfl) this rfl rfl
  | startNotified k spur evs hp hr =>
    have hk := h k; rw [hp] at hk
    have := hn.1 hk; rw [hr] at this
    exact h.upd (k := k) (p := .retry .start) (ho k rfl) ⟨_, this, rfl⟩ rfl rfl
  | startPanic k spur evs r hp hr h2 =>
    have hk := h k; rw [hp] at hk
    have := hn.1 hk; rw [hr] at this
    refine h.upd (k := k) (ho k rfl) ?_ rfl rfl
    cases r with
    | ret r => exact absurd rfl (h2 r)
    | freed => exact this.elim
    | panicked => simp only [queueTid] at this; rw [this]; simp [nodeOk, NodeNext.startPC, NodeNext.contPC, NodeNext.remPC]
  | contClosed k spur evs hp hr =>
    have hk := h k; rw [hp] at hk
    have := hn.2.1 hk; rw [hr] at this
    exact h.upd (k := k) (ho k rfl) (by simp only [queueTid] at this; rw [this]; simp [nodeOk, NodeNext.startPC, NodeNext.contPC, NodeNext.remPC]) rfl rfl
  | contWait k spur evs hp hr =>
    have hk := h k; rw [hp] at hk
    have := hn.2.1 hk; rw [hr] at this
    exact h.upd (k := k) (p := .waiting) (ho k rfl) this rfl rfl
  | contNotified k spur evs hp hr =>
    have hk := h k; rw [hp] at hk
    have := hn.2.1 hk; rw [hr] at this
    exact h.upd (k := k) (p := .retry .queued) (ho k rfl) this rfl rfl
  | contPanic k spur evs r hp hr h2 =>
    have hk := h k; rw [hp] at hk
    have := hn.2.1 hk; rw [hr] at this
    refine h.upd (k := k) (ho k rfl) ?_ rfl rfl
    cases r with
    | ret r => exact absurd rfl (h2 r)
    | freed => exact this.elim
    | panicked => simp only [queueTid] at this; rw [this]; simp [nodeOk, NodeNext.startPC, NodeNext.contPC, NodeNext.remPC]
  | dropEnd k spur evs r hp hr =>
    have hk := h k; rw [hp] at hk
    have := hn.2.2 hk; rw [hr] at this
    refine h.upd (k := k) (ho k rfl) ?_ rfl rfl
    cases r with
    | ret r => exact this.elim
    | freed => simp only [queueTid] at this; rw [this]; simp [nodeOk, NodeNext.startPC, NodeNext.contPC, NodeNext.remPC]
    | panicked => simp only [queueTid] at this; rw [this]; simp [nodeOk, NodeNext.startPC, NodeNext.contPC, NodeNext.remPC]
  | notify a o => exact h.same rfl (hop o rfl)
  | notifyStay a o => exact h.same rfl (hop o rfl)
  | notifyEnd a o => exact h.same rfl (hop o rfl)
  | close o => exact h.same rfl (hop o rfl)
  | closeStay o => exact h.same rfl (hop o rfl)
  | closeEnd o => exact h.same rfl (hop o rfl)

theorem nodeOk_stale {p : SPC} {q q' : Queue.PC W} (h : nodeOk p q) (h0 : ∀ l, q ≠ .idle l) (h1 : NodeNext.startPC q' = NodeNext.startPC q)
    (h2 : NodeNext.contPC q' = NodeNext.contPC q) (h3 : NodeNext.remPC q' = NodeNext.remPC q) (h4 : ∀ l, q' ≠ .idle l) : nodeOk p q' := by
  cases p with
  | push a att => cases att <;> simp_all [nodeOk]
  | retry att => cases att <;> simp_all [nodeOk]
  | _ => simp_all [nodeOk]

theorem _root_.Thingbuf.Queue.Stale.nodeOk {q : Queue.State W} {t : Queue.Tid} {p : Queue.PC W} (h : Queue.Stale q t p) (k : Nat) {x : SPC}
    (hk : Chan.nodeOk x (q.pc (.node k))) : Chan.nodeOk x ((q.goto t p).pc (.node k)) := by
  cases h
  all_goals
    simp only [Queue.State.goto]
    split
    · rename_i e
      first
        | (cases e; done)
        | (cases e; simp only [*] at hk
           exact nodeOk_stale hk (by simp) (by simp [NodeNext.startPC]) (by simp [NodeNext.contPC]) (by simp [NodeNext.remPC]) (by simp))
    · exact hk

theorem ExecM.nodesOk {m : Bool} (h : ExecM m c tr s) : NodesOk s := by
  induction h with
  | stale hm he hs ih => exact fun k => hs.nodeOk k (ih k)
  | mem core cell hm he h1 h2 ih => exact ih
  | init => intro k; rfl
  | step he hs ih =>
    cases step_tr hs with
    | api hm =>
      cases hm with
      | forgetSend k a hp => exact ih.upd (k := k) (fun _ _ => rfl) (nodeOk_over (hp ▸ ih k) rfl (by simp)) rfl rfl
      | _ => exact ih.same rfl fun _ => rfl
    | core h1 hm => exact (ih.core hm).same rfl fun _ => rfl
    | cell h1 hm => exact (ih.cell hm).same rfl fun _ => rfl
    | queue h1 hm => exact ih.queue h1 hm

end Thingbuf.Chan
