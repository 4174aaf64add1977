import Verif.ChanSeqRel
/-!
# Sequential use of the channel: sending
-/

namespace Thingbuf.Chan

open Queue (QSt)

variable {w : Nat} {V W : Type} {c : Config W} {s : State w V W} {σ : Spec V W} {i j k a : Nat} {fs : Nat → Prop} {env : Env V}
  {u : Option W} {v : V} {Q : State w V W → List (Obs V W) → Nat → Prop}

/-- In a push on behalf of send call `k`. -/
def State.pushing (s : State w V W) (k a : Nat) (att : Att) : State w V W :=
  { s with core := s.core.goto a .pushStart, snd := upd s.snd k (.push a att) }

/-- A push of send call `k`. -/
theorem Then.push {att : Att} {fin : State w V W → Nat → State w V W → Trace V W → Nat → Prop} {cs : Thingbuf.State w V} {r : Ret}
    (h : CoreRun c.cap (pushAct env a) (s.core.goto a .pushStart) i cs r j)
    (ht : Then c (sendNext env k u) fin (afterPush c k a att { s with core := cs, snd := upd s.snd k (.push a att) } (some r)).1 j
      fun s' o j => Q s' (obs (afterPush c k a att { s with core := cs, snd := upd s.snd k (.push a att) } (some r)).2 ++ o) j) :
    Then c (sendNext env k u) fin (s.pushing k a att) i Q := by
  refine Then.core (s := { s with snd := upd s.snd k (.push a att) }) (after := afterPush c k a att) ?_ ?_ h ht
  · intro cs j
    by_cases hp : ∃ t, cs.pc a = .pushInit t
    · obtain ⟨t, hp⟩ := hp
      exact ⟨.push k (.elem (env.junk j)), by simp [sendNext, hp], by simp [Chan.step, pushAct, hp, PushIn.act]⟩
    · refine ⟨.push k (.run (spurAt cs a (env.spur j))), ?_, ?_⟩
      · simp only [sendNext, upd_self]
        split
        · exact absurd ⟨_, ‹_›⟩ hp
        · rfl
      · simp only [Chan.step, upd_self, PushIn.act, pushAct]
        split
        · exact absurd ⟨_, ‹_›⟩ hp
        · rfl
  · intro t; rfl

theorem skipped {e : Env V} (h : s.snd k = .done ∨ s.snd k = .waiting) : ThenWrite c e k v s i s [] i :=
  .skip fun a => by rcases h with h | h <;> simp [h]

/-- A push finds the channel closed. -/
theorem Rel.push_closed (hw : WellSized w c.cap) (h : Rel c s σ i (σ.others k)) (hk : k < σ.next) (ha : a < i)
    (hcl : σ.closed = true) (att : Att) :
    Then c (sendNext env k u) (ThenWrite c env k v) (s.pushing k a att) i
      fun s' o j => o = [.closed] ∧ Rel c s' (σ.resolved k) j (σ.resolved k).keys := by
  obtain ⟨H, hc⟩ := h.core
  rw [hcl] at hc
  obtain ⟨j, hj, hij⟩ := CoreAt.push_closed (a := a) (i := i) (env := env) hw hc
  have h1 : Rel c { s with core := s.core.goto a .done, snd := upd s.snd k (.push a att) } σ j (σ.others k) := by
    refine ((h.mono hij).setSnd (fun hh => hh.2 rfl) hk _).setCore (H := H) ?_
    rw [hcl]
    exact hc.goto hij (by omega)
  refine Then.push hj (Then.stop ?_ (skipped (.inl ?_)) ⟨rfl, h1.resolve hk⟩)
  · simp [sendNext, afterPush, State.sendEnd, State.sgoto]
  · simp [afterPush, State.sendEnd, State.sgoto]

/-- The drop of a `SendRef` ends with the notification of the receiver. -/
theorem Rel.notifyRx (h : Rel c s σ i (σ.others k)) (hk : k < σ.next) (hs : σ.senders ≠ []) (ht : s.snd k = .toNotify) :
    Then c (sendNext env k u) Here s i fun s' o j => o = σ.rxWaker.toList.map .woke ∧
      Rel c s' { σ.resolved k with rxWaker := none } j (σ.resolved k).keys := by
  have hce := h.cell
  rw [if_neg hs] at hce
  have hf : s.cell.pc i = .idle := hce.fresh i (Nat.le_refl _)
  refine Then.step (act := .sendNotify k i) (s1 := { s with cell := s.cell.goto i (.notifyStart false), snd := upd s.snd k (.notifying i) })
    (e1 := [.cell (.callNotify i false)]) (by simp [sendNext, ht]) (by simp [step, ht, onCell, Cell.step, hf, State.sgoto]) ?_
  obtain ⟨j, hj, hij⟩ := CellRun.notify (c := c.cell) (o := i) hce.lock false (i + 1)
  refine Then.cell (s := { s with snd := upd s.snd k (.notifying i) }) (after := afterSendNotify k)
    (fin' := fun s _ => (s.sendEnd k, [.api (.dropSendEnd k)])) ?_ ?_ ?_ hj (Then.here ?_ ?_)
  · intro cs j
    exact ⟨.sendNotifyRun k, by simp [sendNext], by simp [step]⟩
  · intro t e he
    cases hn : notifyOver e <;> simp_all [afterSendNotify]
  · intro t e r he
    cases hn : notifyOver e <;> simp_all [afterSendNotify]
  · simp [sendNext, State.sendEnd, State.sgoto]
  · refine ⟨?_, ?_⟩
    · rw [hce.waiter]
      exact List.append_nil _
    · have h1 := (h.mono (j := j) (by omega)).setSnd (fun hh => hh.2 rfl) hk (.notifying i)
      have h2 := h1.resolve hk
      refine { h2 with cell := ?_ }
      refine ⟨?_, rfl, ?_⟩
      · exact (if_neg hs).symm
      · intro b hb
        have : b ≠ i := by omega
        simpa [State.sendEnd, State.sgoto, Cell.State.goto, upd, this] using hce.fresh b (by omega)

/-- A push that finds room, and the rest of the send. -/
theorem Rel.push_ok (hw : WellSized w c.cap) (he : env.Calm) (h : Rel c s σ i (σ.others k)) (hk : k < σ.next) (ha : a < i)
    (hcl : σ.closed = false) (hl : σ.msgs.length < c.cap) (att : Att) :
    Then c (sendNext env k u) (ThenWrite c env k v) (s.pushing k a att) i
      fun s' o j => o = ((σ.resolved k).put v).2 ∧ Rel c s' ((σ.resolved k).put v).1 j (σ.resolved k).keys := by
  obtain ⟨H, hc⟩ := h.core
  rw [hcl] at hc
  obtain ⟨x, j, hj, hij⟩ := CoreAt.push_ok (a := a) (i := i) hw hc hl he
  have hs : σ.senders ≠ [] := by
    intro hh
    have := h.closed.2 (.inl hh)
    rw [hcl] at this; cases this
  -- the state before `_notify`
  let core' : Thingbuf.State w V := { s.core.goto a .done with
    tail := enc w c.cap (H + σ.msgs.length + 1)
    val := upd (upd s.core.val ((H + σ.msgs.length) % c.cap) (some x)) ((H + σ.msgs.length) % c.cap) (some v)
    st := upd s.core.st ((H + σ.msgs.length) % c.cap) (enc w c.cap (H + σ.msgs.length) + 1#w) }
  have hc' : CoreAt w c.cap core' H (σ.msgs ++ [v]) false (j + 1) := by
    refine hc.pushed hl rfl rfl rfl (by simp [core']) ?_ ?_
    · intro m hm
      simp [core', upd_ne _ _ hm]
    · intro b hb
      have : b ≠ a := by omega
      show (s.core.goto a .done).pc b = _
      rw [goto_pc_ne _ _ this]
      exact hc.fresh b (by omega)
  let t : State w V W := { s with core := core', snd := upd s.snd k .toNotify }
  have h1 : Rel c t { σ with msgs := σ.msgs ++ [v] } (j + 1) (σ.others k) := by
    have := (h.mono (j := j + 1) (by omega)).setSnd (fun hh => hh.2 rfl) hk .toNotify
    refine { this with core := ⟨H, ?_⟩ }
    show CoreAt w c.cap core' H _ σ.closed _
    rw [hcl]
    exact hc'
  obtain ⟨s', e, j', hst, ho, hr⟩ := (Rel.notifyRx (env := env) (u := none) h1 hk hs (by simp [t])).steps
  have hdrop : step c { s with core := { core' with pc := upd s.core.pc a (.pushHeld ((H + σ.msgs.length) % c.cap) (enc w c.cap (H + σ.msgs.length) + 1#w)), st := s.core.st }, snd := upd s.snd k (.held a) }
      (.dropSend k) = some (t, [.core (.commit a ((H + σ.msgs.length) % c.cap) (some v)), .api (.dropSend k)]) := by
    have e1 : ∀ p q, upd (upd s.core.pc a p) a q = upd s.core.pc a q := by
      intro p q; funext b; simp only [upd]; split <;> rfl
    have e2 : ∀ p q, upd (upd s.snd k p) k q = upd s.snd k q := by
      intro p q; funext b; simp only [upd]; split <;> rfl
    simp [step, onCore, Thingbuf.step, t, core', State.sgoto, Thingbuf.State.goto, e1, e2]
  refine Then.push hj (Then.stop (s2 := s') (e2 := _) (j2 := j') ?_ (ThenWrite.write (a := a)
    (s1 := { s with core := { core' with pc := upd s.core.pc a (.pushHeld ((H + σ.msgs.length) % c.cap) (enc w c.cap (H + σ.msgs.length) + 1#w)), st := s.core.st }, snd := upd s.snd k (.held a) })
    (e1 := [.core (.access a ((H + σ.msgs.length) % c.cap) (.write v))]) ?_ ?_ ⟨t, _, _, hdrop, hst, rfl⟩) ⟨?_, hr⟩)
  · simp [sendNext, afterPush, State.sgoto]
  · simp [afterPush, State.sgoto]
  · have e2 : ∀ p q, upd (upd s.snd k p) k q = upd s.snd k q := by
      intro p q; funext b; simp only [upd]; split <;> rfl
    simp [step, onCore, afterPush, State.sgoto, Thingbuf.step, e2, Thingbuf.State.goto, core']
  · simp only [obs_append, ho]
    rfl

/-! ## No room -/

theorem CoreAt.full {q : List V} {cap n H : Nat} {cs : Thingbuf.State w V} {cl : Bool} (h : CoreAt w cap cs H q cl n)
    (hl : ¬ q.length < cap) : q.length = cap := by
  have := h.len
  omega

/-- `try_send` finds no room. -/
theorem Rel.push_full_only (hw : WellSized w c.cap) (h : Rel c s σ i (σ.others k)) (hk : k < σ.next) (ha : a < i)
    (hcl : σ.closed = false) (hl : ¬ σ.msgs.length < c.cap) :
    Then c (sendNext env k u) (ThenWrite c env k v) (s.pushing k a .only) i
      fun s' o j => o = [.full] ∧ Rel c s' (σ.resolved k) j (σ.resolved k).keys := by
  obtain ⟨H, hc⟩ := h.core
  rw [hcl] at hc
  obtain ⟨j, hj, hij⟩ := CoreAt.push_full (a := a) (i := i) (env := env) hw hc (hc.full hl)
  have h1 : Rel c { s with core := s.core.goto a .done, snd := upd s.snd k (.push a .only) } σ j (σ.others k) := by
    refine ((h.mono hij).setSnd (fun hh => hh.2 rfl) hk _).setCore (H := H) ?_
    rw [hcl]
    exact hc.goto hij (by omega)
  refine Then.push hj (Then.stop ?_ (skipped (.inl ?_)) ⟨rfl, h1.resolve hk⟩)
  · simp [sendNext, afterPush, State.sendEnd, State.sgoto]
  · simp [afterPush, State.sendEnd, State.sgoto]

/-- A step that only changes where the send call is. -/
theorem upd_upd {α : Type} (f : Nat → α) (k : Nat) (p q : α) : upd (upd f k p) k q = upd f k q := by
  funext b
  simp only [upd]
  split <;> rfl

def startFin (k : Nat) (s : State w V W) : NodeRes → Out w V W
  | .ret .closed => (s.sendEnd k, [.api (.retSend k .closed)])
  | .ret .wait => (s.sgoto k .waiting, [.api (.sleep k)])
  | .ret .notified => (s.sgoto k (.retry .start), [])
  | _ => (s.sendEnd k, [.api (.retSend k .panicked)])

/-- `start_wait` of send call `k`. -/
theorem Then.start {fin : State w V W → Nat → State w V W → Trace V W → Nat → Prop} {x : W} {cs : Queue.State W} {r : NodeRes}
    {ws : List W} (hs : s.snd k = .toStart) (hr : Ready s.queue k)
    (h : QRun c.queue (fun i => .node k (env.spur i)) nodeRet (s.queue.goto (.node k) (.startCas x)) (i + 1) cs ws r j)
    (ht : Then c (sendNext env k (some x)) fin (startFin k { s with queue := cs, snd := upd s.snd k .starting } r).1 j
      fun s' o j => Q s' (ws.map .woke ++ (obs (startFin k { s with queue := cs, snd := upd s.snd k .starting } r).2 ++ o)) j) :
    Then c (sendNext env k (some x)) fin s i Q := by
  obtain ⟨l, h1, h2⟩ := hr.pc
  refine Then.step (act := .start k x) (s1 := { s with queue := s.queue.goto (.node k) (.startCas x), snd := upd s.snd k .starting })
    (e1 := [.queue (.callStart k x)]) (by simp [sendNext, hs])
    (by simp [Chan.step, hs, onQueue, Queue.step, h1, h2, State.sgoto]) ?_
  refine Then.queue (s := { s with snd := upd s.snd k .starting }) (after := afterStart k) (fin' := startFin k) ?_ ?_ ?_ h ht
  · intro cs j
    exact ⟨.node k (env.spur j), by simp [sendNext], by simp [Chan.step]⟩
  · intro t e he
    simp [afterStart, he]
  · intro t e r he
    simp only [afterStart, he]
    cases r with
    | ret r => cases r <;> rfl
    | _ => rfl

/-- `start_wait` returns `Wait`. -/
theorem Rel.waits (he : env.Calm) (h : Rel c s σ i (σ.others k)) (hin : σ.keys k)
    (hcl : σ.closed = false) (hst : σ.stored = false) (hr : Ready s.queue k) (hs : s.snd k = .toStart) {x : W} :
    Then c (sendNext env k (some x)) (ThenWrite c env k v) s i
      fun s' o j => o = [.pending] ∧ Rel c s' { σ with waiting := σ.waiting ++ [(k, x)] } j σ.keys := by
  have hrx : σ.rx = true := by
    cases hrx : σ.rx with
    | true => rfl
    | false => have := h.closed.2 (.inr hrx); rw [hcl] at this; cases this
  have hk : k < σ.next := by
    obtain ⟨y, hy, rfl⟩ := List.mem_map.1 hin
    exact (h.futs y hy).1
  obtain ⟨hq1, hq2⟩ := h.qopen hrx
  obtain ⟨cs, j, hj, hij, hq, hq3, hq4⟩ := h.queue.start_wait (c := c.queue) (spur := env.spur) he hk (fun hh => hh.2 rfl) hr
    (by rw [hq1, hst]; cases σ.waiting <;> simp [qst]) x (i + 1)
  refine Then.start hs hr hj (Then.stop ?_ (skipped (.inr ?_)) ⟨rfl, ?_⟩)
  · simp [sendNext, startFin, State.sgoto]
  · simp [startFin, State.sgoto]
  · have h1 := (h.mono (j := j) (by omega))
    refine { h1 with
      queue := (hq.mono (Nat.le_refl _) (by omega) id).congr ?_
      qopen := fun _ => ⟨?_, hq4.trans hq2⟩
      stored := fun _ => ⟨hst, hrx⟩
      snd := ?_
      sfresh := ?_ }
    · intro m
      simp only [Spec.others]
      by_cases hm : m = k
      · subst hm; simp [hin]
      · simp [hm]
    · show cs.st = _
      rw [hq3]
      simp only
      cases hwt : σ.waiting <;> rfl
    · intro m hm
      simp only [startFin, State.sgoto, upd_upd]
      by_cases hmk : m = k
      · subst hmk; simp
      · rw [upd_ne _ _ hmk]; exact h.snd m ⟨hm, hmk⟩
    · intro m hm
      have : m ≠ k := by simp only at hm; omega
      simp only [startFin, State.sgoto, upd_upd, upd_ne _ _ this]
      exact h.sfresh m hm

/-- A push that finds no room, when the call would wait afterwards. -/
theorem Rel.push_full_start (hw : WellSized w c.cap) (h : Rel c s σ i (σ.others k)) (hk : k < σ.next) (ha : a < i)
    (hcl : σ.closed = false) (hl : ¬ σ.msgs.length < c.cap) {Q : State w V W → List (Obs V W) → Nat → Prop}
    (ht : ∀ cs j, i ≤ j → Rel c { s with core := cs, snd := upd s.snd k .toStart } σ j (σ.others k) →
      Then c (sendNext env k u) (ThenWrite c env k v) { s with core := cs, snd := upd s.snd k .toStart } j Q) :
    Then c (sendNext env k u) (ThenWrite c env k v) (s.pushing k a .start) i Q := by
  obtain ⟨H, hc⟩ := h.core
  rw [hcl] at hc
  obtain ⟨j, hj, hij⟩ := CoreAt.push_full (a := a) (i := i) (env := env) hw hc (hc.full hl)
  have h1 : Rel c { s with core := s.core.goto a .done, snd := upd s.snd k .toStart } σ j (σ.others k) := by
    refine ((h.mono hij).setSnd (fun hh => hh.2 rfl) hk _).setCore (H := H) ?_
    rw [hcl]
    exact hc.goto hij (by omega)
  refine Then.push hj ?_
  have e : (afterPush c k a .start { s with core := s.core.goto a .done, snd := upd s.snd k (.push a .start) } (some .full)) =
      ({ s with core := s.core.goto a .done, snd := upd s.snd k .toStart }, []) := by
    simp [afterPush, State.sgoto, upd_upd]
  rw [e]
  exact ht _ _ hij h1

/-- The attempt is repeated. -/
theorem Rel.retry {att : Att} (h : Rel c s σ i (σ.others k)) (hs : s.snd k = .retry att)
    {fin : State w V W → Nat → State w V W → Trace V W → Nat → Prop}
    (ht : Then c (sendNext env k u) fin (s.pushing k i att) (i + 1) Q) : Then c (sendNext env k u) fin s i Q := by
  obtain ⟨H, hc⟩ := h.core
  have hp := hc.fresh i (Nat.le_refl _)
  refine Then.step (act := .retry k i) (s1 := s.pushing k i att) (e1 := [.core (.invoke i .push), .api (.attempt k i)])
    (by simp [sendNext, hs]) ?_ ht
  simp [Chan.step, hs, onCore, Thingbuf.step, hp, State.sgoto, State.pushing, startPC]

/-- A send that may wait: its first attempt, or the one after it was notified. -/
theorem Rel.attempt (hw : WellSized w c.cap) (hb : c.blocking = false) (he : env.Calm) (h : Rel c s σ i (σ.others k))
    (hin : σ.keys k) (hr : σ.closed = false → Ready s.queue k) (ha : a < i) {att : Att} (hatt : att ≠ .only) (x : W) :
    Then c (sendNext env k (some x)) (ThenWrite c env k v) (s.pushing k a att) i
      fun s' o j => o = (σ.attempt c.cap k v x).2 ∧ Rel c s' (σ.attempt c.cap k v x).1 j (σ.attempt c.cap k v x).1.keys := by
  have hk : k < σ.next := by
    obtain ⟨y, hy, rfl⟩ := List.mem_map.1 hin
    exact (h.futs y hy).1
  cases hcl : σ.closed with
  | true =>
    simp only [Spec.attempt, hcl, if_true]
    exact h.push_closed hw hk ha hcl att
  | false =>
    have hr := hr hcl
    by_cases hl : σ.msgs.length < c.cap
    · simp only [Spec.attempt, hcl, hl, if_true]
      exact h.push_ok hw he hk ha hcl hl att
    · have e0 : σ.attempt c.cap k v x = ({ σ with stored := false, waiting := σ.waiting ++ [(k, x)] }, [.pending]) := by
        unfold Spec.attempt
        rw [if_neg (by simp [hcl]), if_neg hl]
      rw [e0]
      have hrx : σ.rx = true := by
        cases hrx : σ.rx with
        | true => rfl
        | false => have := h.closed.2 (.inr hrx); rw [hcl] at this; cases this
      -- an attempt in `State::Start`
      have start : ∀ {s : State w V W} {i a : Nat}, Rel c s σ i (σ.others k) → a < i → Ready s.queue k →
          Then c (sendNext env k (some x)) (ThenWrite c env k v) (s.pushing k a .start) i
          fun s' o j => o = [.pending] ∧ Rel c s' { σ with stored := false, waiting := σ.waiting ++ [(k, x)] } j σ.keys := by
        intro s i a h ha hr
        refine h.push_full_start hw hk ha hcl hl fun cs j hij h1 => ?_
        cases hst : σ.stored with
        | false =>
          have := h1.waits (env := env) (v := v) (x := x) he hin hcl hst hr (by simp)
          simpa [hst] using this
        | true =>
          have hwt : σ.waiting = [] := by
            cases hwt : σ.waiting with
            | nil => rfl
            | cons y l => have := (h1.stored (by rw [hwt]; simp)).1; rw [hst] at this; cases this
          obtain ⟨hq1, hq2⟩ := h1.qopen hrx
          obtain ⟨qs, hj, hq, hr', hq3, hq4⟩ := h1.queue.start_stored (c := c.queue) (spur := env.spur) hk (fun hh => hh.2 rfl) hr
            (by rw [hq1, hwt, hst]; rfl) x (j + 1)
          refine Then.start (by simp) hr hj ?_
          let t : State w V W := { s with core := cs, queue := qs, snd := upd s.snd k (.retry .start) }
          have h2 : Rel c t { σ with stored := false } (j + 1 + 1) (σ.others k) := by
            have h3 := ((h1.mono (j := j + 1 + 1) (by omega)).setSnd (fun hh => hh.2 rfl) hk (.retry .start))
            simp only [upd_upd] at h3
            exact { h3 with
              queue := hq.mono (Nat.le_refl _) (by omega) id
              qopen := fun _ => ⟨by show qs.st = _; rw [hq3]; simp only [hwt]; rfl, hq4.trans hq2⟩
              stored := fun _ => ⟨rfl, hrx⟩ }
          have e : startFin k { s with core := cs, queue := qs, snd := upd (upd s.snd k .toStart) k .starting } (.ret .notified) =
              (t, []) := by simp [startFin, State.sgoto, upd_upd, t]
          simp only [e]
          refine h2.retry (att := .start) (by simp [t]) ?_
          refine (h2.mono (Nat.le_succ _)).push_full_start hw hk (Nat.lt_succ_self _) hcl hl fun cs' j' hij' h4 => ?_
          exact h4.waits (env := env) (v := v) (x := x) he hin hcl rfl hr' (by simp)
      cases att with
      | only => exact absurd rfl hatt
      | start => exact start h ha hr
      | queued =>
        obtain ⟨H, hc⟩ := h.core
        rw [hcl] at hc
        obtain ⟨j, hj, hij⟩ := CoreAt.push_full (a := a) (i := i) (env := env) hw hc (hc.full hl)
        have h1 : Rel c { s with core := s.core.goto a .done, snd := upd s.snd k (.retry .start) } σ j (σ.others k) := by
          refine ((h.mono hij).setSnd (fun hh => hh.2 rfl) hk _).setCore (H := H) ?_
          rw [hcl]
          exact hc.goto hij (by omega)
        refine Then.push hj ?_
        have e : (afterPush c k a .queued { s with core := s.core.goto a .done, snd := upd s.snd k (.push a .queued) } (some .full)) =
            ({ s with core := s.core.goto a .done, snd := upd s.snd k (.retry .start) }, []) := by
          simp [afterPush, State.sgoto, upd_upd, hb]
        rw [e]
        refine h1.retry (att := .start) (by simp) ?_
        exact start (h1.mono (Nat.le_succ _)) (Nat.lt_succ_self _) hr

end Thingbuf.Chan
