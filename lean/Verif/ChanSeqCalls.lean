import Verif.ChanSeqSend
/-!
# Sequential use of the channel: every call does what the specification says
-/

namespace Thingbuf.Chan

open Queue (QSt)

variable {w : Nat} {V W : Type} {c : Config W} {s : State w V W} {σ : Spec V W} {i j k a : Nat} {fs : Nat → Prop} {env : Env V}
  {u : Option W} {v : V} {Q : State w V W → List (Obs V W) → Nat → Prop}

/-- The call is run to its end, with these observations, and ends in a state that `σ'` describes. -/
def CallOk (c : Config W) (env : Env V) (s : State w V W) (i k : Nat) (call : Call V W) (σ' : Spec V W) (o : List (Obs V W)) : Prop :=
  ∃ s' tr j, CallRun c env s i k call s' tr j ∧ obs tr = o ∧ Rel c s' σ' j σ'.keys ∧ σ'.next = k + call.fresh

theorem Then.begins {next : State w V W → Nat → Option (Act V W)} {fin : State w V W → Nat → State w V W → Trace V W → Nat → Prop}
    {act : Act V W} {s1 : State w V W} {e1 : Trace V W} (hs : Chan.step c s act = some (s1, e1))
    (ht : Then c next fin s1 (i + 1) Q) : ∃ t1 f1 j1 t2 f2 j2, Begins c next act s i t1 f1 j1 ∧ fin t1 j1 t2 f2 j2 ∧
      ∃ o, Q t2 o j2 ∧ obs (f1 ++ f2) = obs e1 ++ o := by
  obtain ⟨t1, f1, j1, t2, f2, j2, h1, h2, h3⟩ := ht
  exact ⟨t1, e1 ++ f1, j1, t2, f2, j2, ⟨s1, e1, f1, hs, h1, rfl⟩, h2, _, h3, by rw [List.append_assoc, obs_append]⟩

theorem Then.begins' {next : State w V W → Nat → Option (Act V W)}
    {act : Act V W} {s1 : State w V W} {e1 : Trace V W} (hs : Chan.step c s act = some (s1, e1))
    (ht : Then c next Here s1 (i + 1) Q) : ∃ t1 f1 j1, Begins c next act s i t1 f1 j1 ∧
      ∃ o, Q t1 o j1 ∧ obs f1 = obs e1 ++ o := by
  obtain ⟨t1, f1, j1, t2, f2, j2, h1, ⟨rfl, rfl, rfl⟩, o, h3, h4⟩ := Then.begins hs ht
  rw [List.append_nil] at h4
  exact ⟨_, _, _, h1, o, h3, h4⟩

/-! ## Senders -/

theorem Rel.clone (h : Rel c s σ i σ.keys) {m : Nat} (hm : m ∈ σ.senders) :
    CallOk c env s i σ.next (.clone m) { σ with senders := σ.next :: σ.senders, next := σ.next + 1 } [] := by
  have hne : σ.senders ≠ [] := by intro hh; rw [hh] at hm; cases hm
  have hlt : σ.next ∉ σ.senders := fun hh => Nat.lt_irrefl _ (h.hlt _ hh)
  refine ⟨{ s with handles := σ.next :: s.handles, txCount := s.txCount + 1 }, [.api (.clone m σ.next)], i, .clone ?_, rfl, ?_, rfl⟩
  · simp [step, h.handles, hm, hlt]
  · have h1 := h.cell
    have h2 := h.closer
    rw [if_neg hne] at h1 h2
    exact { h with
      cell := by rw [if_neg (by simp)]; exact h1
      queue := h.queue.mono (Nat.le_succ _) (Nat.le_refl _) id
      handles := congrArg _ h.handles
      count := by simp [h.count]
      hlt := by
        intro x hx
        rcases List.mem_cons.1 hx with rfl | hx
        · exact Nat.lt_succ_self _
        · exact Nat.lt_succ_of_lt (h.hlt x hx)
      futs := fun x hx => ⟨Nat.lt_succ_of_lt (h.futs x hx).1, List.mem_cons_of_mem _ (h.futs x hx).2⟩
      sfresh := fun m hm => h.sfresh m (Nat.le_of_succ_le hm)
      closer := by rw [if_neg (by simp)]; exact h2
      closed := by rw [h.closed]; simp [hne] }

/-- A new send call: what the specification's state becomes. -/
def Spec.calling (σ : Spec V W) (m : Nat) : Spec V W := { σ with next := σ.next + 1, futs := (σ.next, m) :: σ.futs }

theorem Rel.calling (h : Rel c s σ i σ.keys) {m : Nat} (hm : m ∈ σ.senders) :
    Rel c { s with calls := (σ.next, m) :: s.calls } (σ.calling m) (i + 1) ((σ.calling m).others σ.next) := by
  have hk : ∀ x, (σ.calling m).others σ.next x ↔ σ.keys x := by
    intro x
    simp only [Spec.others, Spec.calling, Spec.keys, List.map_cons, List.mem_cons]
    constructor
    · rintro ⟨h1 | h1, h2⟩
      · exact absurd h1 h2
      · exact h1
    · intro h1
      refine ⟨.inr h1, ?_⟩
      rintro rfl
      obtain ⟨y, hy, he⟩ := List.mem_map.1 h1
      exact Nat.lt_irrefl _ (he ▸ (h.futs y hy).1)
  have h1 := h.mono (Nat.le_succ i)
  exact { h1 with
    queue := (h1.queue.congr fun x => (hk x).symm).mono (Nat.le_succ _) (Nat.le_refl _) id
    hlt := fun x hx => Nat.lt_succ_of_lt (h.hlt x hx)
    calls := congrArg _ h.calls
    futs := by
      intro x hx
      rcases List.mem_cons.1 hx with rfl | hx
      · exact ⟨Nat.lt_succ_self _, hm⟩
      · exact ⟨Nat.lt_succ_of_lt (h.futs x hx).1, (h.futs x hx).2⟩
    snd := fun x hx => h.snd x ((hk x).1 hx)
    sfresh := fun x hx => h.sfresh x (Nat.le_of_succ_le hx) }

theorem Rel.calling_resolved (h : Rel c s σ i fs) (m : Nat) : (σ.calling m).resolved σ.next = { σ with next := σ.next + 1 } := by
  have : σ.futs.filter (fun x => x.1 ≠ σ.next) = σ.futs := by
    rw [List.filter_eq_self]
    intro x hx
    have := (h.futs x hx).1
    simp
    omega
  simp only [Spec.calling, Spec.resolved, List.filter_cons]
  rw [if_neg (by simp), this]

theorem Rel.call_step (h : Rel c s σ i σ.keys) {m : Nat} (hm : m ∈ σ.senders) (wait : Bool) :
    step c s (.send σ.next m wait i) = some (({ s with calls := (σ.next, m) :: s.calls } : State w V W).pushing σ.next i
      (if wait then .start else .only), [.core (.invoke i .push), .api (.callSend σ.next m wait), .api (.attempt σ.next i)]) := by
  obtain ⟨H, hc⟩ := h.core
  have hp := hc.fresh i (Nat.le_refl _)
  have h1 := h.sfresh σ.next (Nat.le_refl _)
  simp [step, h1, h.handles, hm, onCore, Thingbuf.step, hp, State.sgoto, State.pushing, startPC]

theorem Rel.trySend (hw : WellSized w c.cap) (he : env.Calm) (h : Rel c s σ i σ.keys) {m : Nat} (hm : m ∈ σ.senders) (v : V)
    {σ' : Spec V W} {o : List (Obs V W)} (hs : σ.step c.cap c.queue.same (.trySend m v) = some (σ', o)) :
    CallOk c env s i σ.next (.trySend m v) σ' o := by
  have h0 := h.calling hm
  have hk : σ.next < (σ.calling m).next := Nat.lt_succ_self _
  have key : Then c (sendNext env σ.next none) (ThenWrite c env σ.next v)
      (({ s with calls := (σ.next, m) :: s.calls } : State w V W).pushing σ.next i .only) (i + 1)
      fun s' o' j => o' = o ∧ Rel c s' σ' j σ'.keys ∧ σ'.next = σ.next + 1 := by
    simp only [Spec.step, hm, if_true] at hs
    have er := h.calling_resolved m
    cases hcl : σ.closed with
    | true =>
      simp only [hcl, if_true, Option.some.injEq, Prod.mk.injEq] at hs
      obtain ⟨rfl, rfl⟩ := hs
      have := h0.push_closed (env := env) (u := none) (v := v) hw hk (Nat.lt_succ_self i) hcl .only
      rw [er] at this
      refine this.mono fun _ _ _ hh => ⟨hh.1, ?_, rfl⟩
      have h2 := hh.2
      rw [← hcl]
      exact h2
    | false =>
      by_cases hl : σ.msgs.length < c.cap
      · simp only [hcl, hl, if_true, Bool.false_eq_true, if_false, Option.some.injEq] at hs
        have := h0.push_ok (env := env) (u := none) (v := v) hw he hk (Nat.lt_succ_self i) hcl hl .only
        rw [er] at this
        rw [← hcl] at hs
        have hs1 := congrArg Prod.fst hs
        have hs2 := congrArg Prod.snd hs
        simp only at hs1 hs2
        subst hs1 hs2
        exact this.mono fun _ _ _ hh => ⟨hh.1, hh.2, rfl⟩
      · simp only [hcl, hl, Bool.false_eq_true, if_false, Option.some.injEq, Prod.mk.injEq] at hs
        obtain ⟨rfl, rfl⟩ := hs
        have := h0.push_full_only (env := env) (u := none) (v := v) hw hk (Nat.lt_succ_self i) hcl hl
        rw [er] at this
        refine this.mono fun _ _ _ hh => ⟨hh.1, ?_, rfl⟩
        have h2 := hh.2
        rw [← hcl]
        exact h2
  obtain ⟨t1, f1, j1, t2, f2, j2, h1, h2, o', ⟨rfl, h3, h4⟩, h5⟩ := Then.begins (h.call_step hm false) key
  exact ⟨t2, f1 ++ f2, j2, .trySend h1 h2, h5, h3, h4⟩

theorem attempt_next (cap : Nat) (σ : Spec V W) (k : Nat) (v : V) (x : W) : (σ.attempt cap k v x).1.next = σ.next := by
  unfold Spec.attempt
  split
  · rfl
  · split <;> rfl

theorem Rel.send (hw : WellSized w c.cap) (hb : c.blocking = false) (he : env.Calm) (h : Rel c s σ i σ.keys) {m : Nat}
    (hm : m ∈ σ.senders) (v : V) (x : W) {σ' : Spec V W} {o : List (Obs V W)}
    (hs : σ.step c.cap c.queue.same (.send m v x) = some (σ', o)) : CallOk c env s i σ.next (.send m v x) σ' o := by
  have h0 := h.calling hm
  have key := h0.attempt (env := env) (v := v) (a := i) hw hb he
    (by simp [Spec.keys, Spec.calling]) (fun _ => h.queue.fresh_ready (Nat.le_refl _)) (Nat.lt_succ_self i) (att := .start) (by simp) x
  simp only [Spec.step, hm, if_true, Option.some.injEq] at hs
  change Spec.attempt c.cap (σ.calling m) σ.next v x = (σ', o) at hs
  obtain ⟨t1, f1, j1, t2, f2, j2, h1, h2, o', ⟨rfl, h3⟩, h5⟩ := Then.begins (h.call_step hm true) key
  have hn := attempt_next c.cap (σ.calling m) σ.next v x
  rw [hs] at h3 h5 hn
  exact ⟨t2, f1 ++ f2, j2, .send h1 h2, h5, h3, hn⟩

def contFin (k : Nat) (s : State w V W) : NodeRes → Out w V W
  | .ret .closed => (s.sendEnd k, [.api (.retSend k .closed)])
  | .ret .wait => (s.sgoto k .waiting, [.api (.sleep k)])
  | .ret .notified => (s.sgoto k (.retry .queued), [])
  | _ => (s.sendEnd k, [.api (.retSend k .panicked)])

/-- `continue_wait` of send call `k`. -/
theorem Then.cont {fin : State w V W → Nat → State w V W → Trace V W → Nat → Prop} {cs qs : Queue.State W} {r : NodeRes} {ws : List W}
    (h : QRun c.queue (fun i => .node k (env.spur i)) nodeRet qs i cs ws r j)
    (ht : Then c (sendNext env k u) fin (contFin k { s with queue := cs, snd := upd s.snd k .conting } r).1 j
      fun s' o j => Q s' (ws.map .woke ++ (obs (contFin k { s with queue := cs, snd := upd s.snd k .conting } r).2 ++ o)) j) :
    Then c (sendNext env k u) fin { s with queue := qs, snd := upd s.snd k .conting } i Q := by
  refine Then.queue (s := { s with snd := upd s.snd k .conting }) (after := afterCont k) (fin' := contFin k) ?_ ?_ ?_ h ht
  · intro cs j
    exact ⟨.node k (env.spur j), by simp [sendNext], by simp [Chan.step]⟩
  · intro t e he
    simp [afterCont, he]
  · intro t e r he
    simp only [afterCont, he]
    cases r with
    | ret r => cases r <;> rfl
    | _ => rfl

/-- Take future `k` out of the futures at rest. -/
theorem Rel.take (h : Rel c s σ i σ.keys) {qs : Queue.State W} (hq : QAt qs σ.waiting (σ.others k) σ.next i σ.closed)
    (h1 : qs.st = s.queue.st) (h2 : qs.rxGone = s.queue.rxGone) (hk : k < σ.next) (p : SPC) :
    Rel c { s with queue := qs, snd := upd s.snd k p } σ i (σ.others k) :=
  { h with
    queue := hq
    qopen := fun hr => ⟨h1.trans (h.qopen hr).1, h2.trans (h.qopen hr).2⟩
    snd := fun m hm => by
      simp only [upd_ne _ _ hm.2]
      exact h.snd m hm.1
    sfresh := fun m hm => by
      have : m ≠ k := by omega
      simp only [upd_ne _ _ this]
      exact h.sfresh m hm }

theorem Rel.key_lt (h : Rel c s σ i fs) (hk : σ.keys k) : k < σ.next := by
  obtain ⟨y, hy, rfl⟩ := List.mem_map.1 hk
  exact (h.futs y hy).1

theorem Rel.pollSend (hw : WellSized w c.cap) (hb : c.blocking = false) (he : env.Calm) (h : Rel c s σ i σ.keys) (hk : σ.keys k)
    (v : V) (x : W) {σ' : Spec V W} {o : List (Obs V W)}
    (hs : σ.step c.cap c.queue.same (.pollSend k v x) = some (σ', o)) : CallOk c env s i σ.next (.pollSend k v x) σ' o := by
  have hlt := h.key_lt hk
  have hsn := h.snd k hk
  have hpc := (h.queue.pcs k hk).1
  have hstep : step c s (.cont k x) = some ({ s with queue := s.queue.goto (.node k) (.contLoad x), snd := upd s.snd k .conting },
      [.queue (.callCont k x)]) := by
    simp [step, hsn, onQueue, Queue.step, hpc, Queue.Last.mayCont, State.sgoto]
  have key : Then c (sendNext env k (some x)) (ThenWrite c env k v)
      { s with queue := s.queue.goto (.node k) (.contLoad x), snd := upd s.snd k .conting } (i + 1)
      fun s' o' j => o' = o ∧ Rel c s' σ' j σ'.keys ∧ σ'.next = σ.next := by
    have hk' : k ∈ σ.futs.map Prod.fst := hk
    simp only [Spec.step, hk', if_true] at hs
    by_cases hwt : k ∈ σ.waiting.map Prod.fst
    · simp only [hwt, if_true, Option.some.injEq, Prod.mk.injEq] at hs
      obtain ⟨rfl, rfl⟩ := hs
      obtain ⟨qs, j, hj, hij, hq, hq1, hq2⟩ := h.queue.cont_wait (c := c.queue) (spur := env.spur) hk hwt x (i + 1)
      refine Then.cont hj (Then.stop ?_ (skipped (.inr ?_)) ⟨rfl, ?_, rfl⟩)
      · simp [sendNext, contFin, State.sgoto]
      · simp [contFin, State.sgoto]
      · have h1 := h.mono (j := j) (by omega)
        have hqe : ∀ b, qst (rewake c.queue.same k x σ.waiting) b = qst σ.waiting b := by
          intro b
          cases σ.waiting with
          | nil => rfl
          | cons y l => rfl
        exact { h1 with
          queue := hq.mono (Nat.le_refl _) (by omega) id
          qopen := fun hr => ⟨(hq1.trans (h.qopen hr).1).trans (hqe _).symm, hq2.trans (h.qopen hr).2⟩
          stored := fun _ => h.stored (by intro hh; rw [hh] at hwt; cases hwt)
          snd := by
            intro m hm
            simp only [contFin, State.sgoto, upd_upd]
            by_cases hmk : m = k
            · subst hmk; simp
            · rw [upd_ne _ _ hmk]; exact h.snd m hm
          sfresh := by
            intro m hm
            have : m ≠ k := by simp only at hm; omega
            simp only [contFin, State.sgoto, upd_upd, upd_ne _ _ this]
            exact h.sfresh m hm }
    · simp only [hwt, if_false, Option.some.injEq] at hs
      have hn := attempt_next c.cap σ k v x
      obtain ⟨qs, r, hj, hq, hq1, hq2, hr⟩ := h.queue.cont_off (c := c.queue) (spur := env.spur) hk hwt x (i + 1)
      refine Then.cont hj ?_
      rcases hr with ⟨rfl, hr⟩ | ⟨rfl, hcl⟩
      · have e : contFin k { s with queue := qs, snd := upd s.snd k .conting } (.ret .notified) =
            ({ s with queue := qs, snd := upd s.snd k (.retry .queued) }, []) := by simp [contFin, State.sgoto, upd_upd]
        simp only [e]
        have h1 := (h.take hq hq1 hq2 hlt (.retry .queued)).mono (j := i + 1 + 1) (by omega)
        refine h1.retry (att := .queued) (by simp) ?_
        refine ((h1.mono (Nat.le_succ _)).attempt (env := env) (v := v) (a := i + 1 + 1) hw hb he hk (fun _ => hr) (Nat.lt_succ_self _) (att := .queued) (by simp) x).mono ?_
        intro s' o' j' hh
        rw [hs] at hh hn
        exact ⟨hh.1, hh.2, hn⟩
      · have h1 := ((h.take hq hq1 hq2 hlt .conting).mono (j := i + 1 + 1) (by omega)).resolve hlt
        refine Then.stop ?_ (skipped (.inl ?_)) ⟨?_, ?_⟩
        · simp [sendNext, contFin, State.sgoto, State.sendEnd]
        · simp [contFin, State.sgoto, State.sendEnd]
        · simp only [Spec.attempt, hcl, if_true, Prod.mk.injEq] at hs
          rw [← hs.2]; rfl
        · simp only [Spec.attempt, hcl, if_true, Prod.mk.injEq] at hs
          rw [← hs.1]
          refine ⟨?_, rfl⟩
          exact h1
  obtain ⟨t1, f1, j1, t2, f2, j2, h1, h2, o', ⟨rfl, h3, h4⟩, h5⟩ := Then.begins hstep key
  exact ⟨t2, f1 ++ f2, j2, .pollSend h1 h2, h5, h3, h4⟩

theorem Rel.cancel (hb : c.blocking = false) (h : Rel c s σ i σ.keys) (hk : σ.keys k) :
    CallOk c env s i σ.next (.cancel k) { σ.resolved k with waiting := σ.waiting.filter fun x => x.1 ≠ k } [] := by
  have hlt := h.key_lt hk
  have hsn := h.snd k hk
  have hpc := (h.queue.pcs k hk).1
  have hstep : step c s (.cancel k) = some ({ s with queue := s.queue.goto (.node k) .remCheck, snd := upd s.snd k .dropping },
      [.queue (.callDrop k), .api (.cancel k)]) := by
    simp [step, hsn, hb, onQueue, Queue.step, hpc, State.sgoto]
  have lift : ∀ {qs : Queue.State W} {j : Nat}, QRun c.queue (fun i => .node k (env.spur i)) nodeRet (s.queue.goto (.node k) .remCheck) (i + 1) qs [] .freed j →
      Rel c { s with queue := qs, snd := upd s.snd k .dropping } { σ with waiting := σ.waiting.filter fun x => x.1 ≠ k } j (σ.others k) →
      Then c (sendNext env k none) Here { s with queue := s.queue.goto (.node k) .remCheck, snd := upd s.snd k .dropping } (i + 1)
        fun s' o j => o = [] ∧ Rel c s' { σ.resolved k with waiting := σ.waiting.filter fun x => x.1 ≠ k } j (σ.resolved k).keys := by
    intro qs j hj h1
    refine Then.queue (s := { s with snd := upd s.snd k .dropping }) (after := afterDrop k)
      (fin' := fun s _ => (s.sendEnd k, [.api (.cancelled k)])) ?_ ?_ ?_ hj (Then.here ?_ ⟨rfl, h1.resolve hlt⟩)
    · intro cs j
      exact ⟨.node k (env.spur j), by simp [sendNext], by simp [step]⟩
    · intro t e he
      simp [afterDrop, he]
    · intro t e r he
      simp [afterDrop, he]
    · simp [sendNext, State.sendEnd, State.sgoto]
  have key : Then c (sendNext env k none) Here { s with queue := s.queue.goto (.node k) .remCheck, snd := upd s.snd k .dropping } (i + 1)
        fun s' o j => o = [] ∧ Rel c s' { σ.resolved k with waiting := σ.waiting.filter fun x => x.1 ≠ k } j (σ.resolved k).keys := by
    by_cases hwt : k ∈ σ.waiting.map Prod.fst
    · have hne : σ.waiting ≠ [] := by intro hh; rw [hh] at hwt; cases hwt
      obtain ⟨hst, hrx⟩ := h.stored hne
      have hst' : s.queue.st = .waiting := by
        rw [(h.qopen hrx).1]
        cases hh : σ.waiting with
        | nil => exact absurd hh hne
        | cons y l => rfl
      obtain ⟨qs, j, hj, hij, hq, hq1, hq2⟩ := h.queue.drop_in (c := c.queue) (spur := env.spur) hk hwt hst' (i + 1)
      refine lift hj ?_
      have h1 := h.mono (j := j) (by omega)
      exact { h1 with
        queue := hq.mono (Nat.le_refl _) (by omega) id
        qopen := fun hr => ⟨by rw [hst]; exact hq1, hq2.trans (h.qopen hr).2⟩
        stored := fun _ => ⟨hst, hrx⟩
        snd := fun m hm => by
          simp only [upd_ne _ _ hm.2]
          exact h.snd m hm.1
        sfresh := fun m hm => by
          have : m ≠ k := by simp only at hm; omega
          simp only [upd_ne _ _ this]
          exact h.sfresh m hm }
    · obtain ⟨qs, hj, hq, hq1, hq2⟩ := h.queue.drop_off (c := c.queue) (spur := env.spur) hk hwt (i + 1)
      refine lift hj ?_
      have : (σ.waiting.filter fun x => x.1 ≠ k) = σ.waiting := by
        rw [List.filter_eq_self]
        intro x hx
        have : x.1 ≠ k := by rintro rfl; exact hwt (List.mem_map_of_mem hx)
        simpa using this
      rw [this]
      exact (h.take hq hq1 hq2 hlt .dropping).mono (by omega)
  obtain ⟨t1, f1, j1, h1, o', ⟨rfl, h3⟩, h5⟩ := Then.begins' hstep key
  exact ⟨t1, f1, j1, .cancel h1, h5, h3, rfl⟩

end Thingbuf.Chan
