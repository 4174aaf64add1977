import Verif.ChanProps
import Verif.ChanLin
import Verif.DropSlots

/-!
# The end of the channel

Lemmas about the state in which the `Receiver` and the last `Sender` have been dropped.
-/

namespace Thingbuf.Chan

variable {w : Nat} {V W : Type} {c : Config W} {tr : Trace V W} {s : State w V W}

/-- Where everyone is when both drops have returned. -/
theorem ExecM.dropped_both {m : Bool} (h : ExecM m c tr s) (hr : .api .rxDropped ∈ tr) (ht : .api .lastTxDropped ∈ tr) :
    s.rx = .gone ∧ s.closer = .done ∧ s.handles = [] ∧ (∀ k, (s.snd k).active = false) ∧ ∀ a, (s.ref a).live = false := by
  have h1 := h.rxInv.gone hr
  have h2 := h.clInv.fin ht
  have h3 : s.handles = [] := Classical.byContradiction fun hn => by
    have := h.hinv.closer.2 hn
    rw [h2] at this; cases this
  refine ⟨h1, h2, h3, fun k => ?_, fun a => ?_⟩
  · cases hk : (s.snd k).active with
    | false => rfl
    | true => exact absurd h3 (h.active_handles hk)
  · cases hk : (s.ref a).live with
    | false => rfl
    | true =>
      have := (h.rinv.refs a).2 hk
      rw [h.rinv.closing (by rw [h1]; rfl)] at this
      cases this

/-- The channel does not ask the length of its ring buffer. -/
theorem ExecM.no_len {m : Bool} (h : ExecM m c tr s) (a : OpId) : .invoke a .len ∉ coreOf tr := by
  induction h with
  | init => simp
  | stale _ _ _ ih => exact ih
  | mem _ _ _ _ _ _ ih => exact ih
  | step he hs ih =>
    rw [coreOf_append, List.mem_append]
    rintro (hm | hm)
    · exact ih hm
    · cases step_tr hs with
      | api hm' => simp at hm
      | cell h1 hm' => simp at hm
      | queue h1 hm' => simp at hm
      | core h1 hm' =>
        simp at hm
        have h2 := ((core_evs h1).inv _ _).1 hm
        generalize coreRet _ = r at hm'
        cases hm' <;> first
          | exact absurd h2 (by simp)
          | (rename_i spur _ _; exact absurd h2 (by cases spur <;> simp [runAct]))
          | (unfold PushIn.act runAct at h2; split at h2 <;> (try split at h2) <;> cases h2)
          | (unfold runAct at h2; split at h2 <;> cases h2)

/-- Whether an operation has returned, from where it is in the code. -/
theorem pcInv.status {m : Prop} {cap : Nat} {T : Thingbuf.Trace V} {q : Thingbuf.State w V} {a : OpId} (h : pcInv m w cap T q a (q.pc a))
    (hi : Invoked T a) (hr : ¬ Returned T a) : ∃ op, .invoke a op ∈ T ∧ (op ≠ .len → ∃ k, opKind op = some k ∧ coreKind (q.pc a) = some k) := by
  cases hp : q.pc a <;> simp only [hp, pcInv] at h
  case idle => exact absurd hi h.1
  case done => exact absurd h.2.1 hr
  case pushHeld => obtain ⟨p, -, h3, -⟩ := h; exact absurd h3 hr
  case pushPanicked => obtain ⟨p, -, h3, -⟩ := h; exact absurd h3 hr
  case popHeld => obtain ⟨p, h3, -⟩ := h; exact absurd h3.ret hr
  case pushInit => obtain ⟨p, h3, -⟩ := h; exact ⟨_, h3.inv, fun _ => ⟨_, rfl, rfl⟩⟩
  case lenStart => exact ⟨_, h.inv, fun e => absurd rfl e⟩
  case lenHead => exact ⟨_, h.1.inv, fun e => absurd rfl e⟩
  case lenTail => exact ⟨_, h.1.inv, fun e => absurd rfl e⟩
  all_goals first
    | exact ⟨_, h.inv, fun _ => ⟨_, rfl, rfl⟩⟩
    | exact ⟨_, h.1.inv, fun _ => ⟨_, rfl, rfl⟩⟩

/-- No operation of the ring buffer is in progress when both drops have returned. -/
theorem ExecM.over_quiet {m : Bool} (h : ExecM m c tr s)
    (hs : ∀ a, Invoked (coreOf tr) a → ¬ Returned (coreOf tr) a →
      ∃ op, .invoke a op ∈ coreOf tr ∧ (op ≠ .len → ∃ k, opKind op = some k ∧ coreKind (s.core.pc a) = some k))
    (hr : .api .rxDropped ∈ tr) (ht : .api .lastTxDropped ∈ tr) (a : OpId) : ¬ Thingbuf.Pending (coreOf tr) a := by
  rintro ⟨hi, hn⟩
  obtain ⟨h1, h2, h3, h4, h5⟩ := h.dropped_both hr ht
  obtain ⟨op, hop, hk⟩ := hs a hi hn
  obtain ⟨ck, hck, hk⟩ := hk fun e => h.no_len a (e ▸ hop)
  obtain ⟨x, hx⟩ := h.coreOwns.cov a ck hk
  cases x with
  | snd k =>
    simp only [coreClaim, claimOf] at hx
    have := h4 k
    cases hp : s.snd k <;> simp [hp, sndCore, SPC.active] at hx this
    obtain ⟨-, rfl⟩ := hx
    cases op <;> simp [opKind] at hck
  | rx => simp [coreClaim, claimOf, h1, rxCore] at hx
  | closer => simp [coreClaim, claimOf, h2, closerCore] at hx
  | ref b =>
    simp only [coreClaim, claimOf] at hx
    cases hp : s.ref b <;> simp [hp, refCore] at hx
    all_goals
      obtain ⟨-, rfl⟩ := hx
      cases op <;> simp [opKind] at hck

theorem Run.over_quiet (h : Run c tr s) (hr : .api .rxDropped ∈ tr) (ht : .api .lastTxDropped ∈ tr) (a : OpId) :
    ¬ Thingbuf.Pending (coreOf tr) a :=
  h.exec.over_quiet (fun b => pcInv.status (h.core.inv.pcs b)) hr ht a

/-- Nobody can do anything when both drops have returned. -/
theorem ExecM.over_stuck {m : Bool} (h : ExecM m c tr s) (hr : .api .rxDropped ∈ tr) (ht : .api .lastTxDropped ∈ tr) (act : Act V W) :
    Chan.step c s act = none := by
  obtain ⟨h1, h2, h3, h4, h5⟩ := h.dropped_both hr ht
  cases act with
  | clone | dropTx => simp [Chan.step, h3]
  | closer => simp [Chan.step, closerStep, h2]
  | send k h' wait a => simp only [Chan.step, h3]; split <;> simp
  | push k | retry k | start k | cont k | node k | cancel k | timeout k | sendRead k | sendWrite k | dropSend k | sendNotify k | sendNotifyRun k | forgetSend k =>
    have := h4 k
    cases hp : s.snd k <;> simp [hp, SPC.active] at this <;> simp [Chan.step, hp]
  | poll | tryRecv | dropRx => simp [Chan.step, h1]
  | rx => simp [Chan.step, rxStep, h1]
  | recvRead a | recvWrite a | dropRecv a | recvNotify a | recvNotifyRun a | forgetRecv a =>
    have := h5 a
    cases hp : s.ref a <;> simp [hp, RefPC.live] at this <;> simp [Chan.step, hp]

/-- The value of a message that was sent and not received is in its slot. -/
theorem in_slot {m : Prop} {q : Thingbuf.State w V} (hf : Facts m w c.cap (coreOf tr)) (hi : Inv m w c.cap (coreOf tr) q)
    (he : received tr = deqOps (coreOf tr)) {i : Nat} {a : OpId} {x : V} (ha : (resOps (coreOf tr))[i]? = some a) (hn : (received tr).length ≤ i)
    (hx : sent (coreOf tr) a = some x) : q.val (i % c.cap) = some x := by
  have hd : nDeq (coreOf tr) ≤ i := by rw [show nDeq (coreOf tr) = (deqOps (coreOf tr)).length from rfl, ← he]; exact hn
  rcases hi.busy i a hd ha with ⟨-, v, h1, h2⟩ | ⟨-, -, h1⟩
  · rw [hf.sent_eq h2] at hx
    rw [h1, hx]
  · rw [sent_none h1] at hx; cases hx

end Thingbuf.Chan
