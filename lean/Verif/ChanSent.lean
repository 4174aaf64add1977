import Verif.ChanEvs
import Verif.ChanHist

/-!
# What is sent and what is received

Each message in the channel belongs to one send call, and each message taken out was handed to the user.
-/

namespace Thingbuf.Chan

variable {w : Nat} {V W : Type} {c : Config W} {tr : Trace V W} {s : State w V W}

/-- Which results a step of the ring buffer can have, by the operation it belongs to. -/
theorem ret_push {s1 : Thingbuf.State w V} {evs : List (Event V)} {a : OpId} {i : PushIn V} {k : Nat} {att : Att}
    (ho : CoreOwns s) (h1 : Thingbuf.step c.cap s.core (i.act a) = some (s1, evs)) (hp : s.snd k = .push a att) :
    coreKind (s.core.pc a) = some .push ∧ coreRet evs ≠ some .popped := by
  have hk : coreKind (s.core.pc a) = some .push := ho.sat (.snd k) a .push (by simp [coreClaim, claimOf, hp, sndCore])
  have := (core_next h1).2
  rw [actOp_push] at this
  exact ⟨hk, ((next_push this).1 hk).2.2.2⟩

theorem ret_close {s1 : Thingbuf.State w V} {evs : List (Event V)} {a : OpId}
    (h1 : Thingbuf.step c.cap s.core (.run a) = some (s1, evs)) (hk : coreKind (s.core.pc a) = some .close) :
    ∃ b, coreRet evs = some (.closeRet b) := ((core_next h1).2.2.2 hk).2

theorem received_append (l l' : Trace V W) : received (l ++ l') = received l ++ received l' := List.filterMap_append ..
@[simp] theorem received_core (l : List (Event V)) : received (l.map (.core : _ → Ev V W)) = [] := by
  induction l <;> simp_all [received]
@[simp] theorem received_cell (l : List (Cell.Event W)) : received (l.map (.cell : _ → Ev V W)) = [] := by
  induction l <;> simp_all [received]
@[simp] theorem received_queue (l : List (Queue.Event W)) : received (l.map (.queue : _ → Ev V W)) = [] := by
  induction l <;> simp_all [received]

theorem deqOps_append (a b : Thingbuf.Trace V) : deqOps (a ++ b) = deqOps a ++ deqOps b := List.filterMap_append ..

theorem ExecM.received {m : Bool} (h : ExecM m c tr s) : Chan.received tr = deqOps (coreOf tr) := by
  refine ExecM.ind (P := fun tr _ => Chan.received tr = deqOps (coreOf tr)) ?_ (fun _ _ _ _ _ ih _ => ih) (fun _ _ _ _ _ ih _ _ => ih) ?_ ?_ ?_ ?_ tr s h
  · rfl
  · intro tr s t e _ ih hm
    rw [received_append, ih]
    cases hm <;> simp [Chan.received, coreOf]
  · intro tr s act s1 evs r t es he ih h1 hr hm
    have hev := (core_evs h1).deq
    have ho := he.coreOwns
    rw [received_append, ih, coreOf_append, deqOps_append]
    congr 1
    rw [received_append, received_core, coreOf_append, coreOf_core, coreOf_api, List.append_nil, hev, hr]
    have hn := (core_next h1).2
    cases hm
    case cCall => rw [hr] at hn; simp [hn.2.1, Chan.received]
    case cNext a _ h _ =>
      obtain ⟨b, hb⟩ := ret_close h1 (ho.sat .closer a .close (by simp [coreClaim, claimOf, h, closerCore]))
      rw [hr] at hb; simp [hb, Chan.received]
    case cSkip a _ h _ _ =>
      obtain ⟨b, hb⟩ := ret_close h1 (ho.sat .closer a .close (by simp [coreClaim, claimOf, h, closerCore]))
      rw [hr] at hb; simp [hb, Chan.received]
    case send => rw [hr] at hn; simp [hn.2.1, Chan.received]
    case pushPanic k a att i r h _ _ _ =>
      have := (ret_push ho h1 h).2
      rw [hr] at this; rw [if_neg this]; simp [Chan.received]
    case retry => rw [hr] at hn; simp [hn.2.1, Chan.received]
    case sendRead => rw [hr] at hn; simp [hn.1, Chan.received]
    case sendWrite => rw [hr] at hn; simp [hn.1, Chan.received]
    case dropSend => rw [hr] at hn; simp [hn.1, Chan.received]
    case tryRecv => rw [hr] at hn; simp [hn.2.1, Chan.received]
    case toPop => rw [hr] at hn; simp [hn.2.1, Chan.received]
    case toPop2 => rw [hr] at hn; simp [hn.2.1, Chan.received]
    case toLast => rw [hr] at hn; simp [hn.2.1, Chan.received]
    case rxClose => rw [hr] at hn; simp [hn.2.1, Chan.received]
    case rxSkip a r h _ =>
      obtain ⟨b, hb⟩ := ret_close h1 (ho.sat .rx a .close (by simp [coreClaim, claimOf, h, rxCore]))
      rw [hr] at hb; simp [hb, Chan.received]
    case recvRead => rw [hr] at hn; simp [hn.1, Chan.received]
    case recvWrite => rw [hr] at hn; simp [hn.1, Chan.received]
    case dropRecv => rw [hr] at hn; simp [hn.1, Chan.received]
    case tryEmpty => simp_all [Chan.received]
    case popEmpty => simp_all [Chan.received]
    case pop2Pending => simp_all [Chan.received]
    case lastNone => simp_all [Chan.received]
    all_goals simp [Chan.received, actOp_runAct]
  · intro tr s act s1 evs t es _ ih _ hm
    rw [received_append, ih]
    cases hm <;> simp [Chan.received] <;> induction evs <;> simp_all
  · intro tr s act s1 evs t es _ ih _ hm
    rw [received_append, ih]
    cases hm <;> simp [Chan.received] <;> induction evs <;> simp_all

/-! ### The attempts of a send call -/

/-- How an attempt ended: the result of the push operation and that of the call. -/
def Ended (tr : Trace V W) (k : Nat) (a : OpId) : Prop :=
  ∃ r, .core (.ret a r) ∈ tr ∧ (r = .pushed → .api (.retSend k (.ok a)) ∈ tr) ∧ (r = .closed → .api (.retSend k .closed) ∈ tr) ∧
    (r ≠ .pushed → r ≠ .closed → r ≠ .full → .api (.retSend k .panicked) ∈ tr)

/-- All attempts of call `k` but `a` found the channel full. -/
def OthersFull (tr : Trace V W) (k : Nat) (a : Option OpId) : Prop :=
  ∀ b, some b ≠ a → .api (.attempt k b) ∈ tr → .core (.ret b .full) ∈ tr

def AttOk (tr : Trace V W) (k : Nat) : SPC → Prop
  | .off => ∀ a, .api (.attempt k a) ∉ tr
  | .push a _ => .api (.attempt k a) ∈ tr ∧ OthersFull tr k (some a)
  | .retry _ | .toStart | .starting | .waiting | .toCont | .conting | .dropping => OthersFull tr k none
  | _ => ∃ a, OthersFull tr k a ∧ ∀ b, a = some b → Ended tr k b

theorem OthersFull.mono {evs : Trace V W} {k : Nat} {a : Option OpId} (h : OthersFull tr k a) (hn : ∀ b, .api (.attempt k b) ∉ evs) :
    OthersFull (tr ++ evs) k a := fun b hb ha =>
  List.mem_append_left _ (h b hb ((List.mem_append.1 ha).resolve_right (hn b)))

theorem Ended.mono {evs : Trace V W} {k : Nat} {a : OpId} (h : Ended tr k a) : Ended (tr ++ evs) k a := by
  obtain ⟨r, h1, h2, h3, h4⟩ := h
  exact ⟨r, List.mem_append_left _ h1, fun e => List.mem_append_left _ (h2 e), fun e => List.mem_append_left _ (h3 e),
    fun e e' e'' => List.mem_append_left _ (h4 e e' e'')⟩

theorem AttOk.mono {evs : Trace V W} {k : Nat} {p : SPC} (h : AttOk tr k p) (hn : ∀ b, .api (.attempt k b) ∉ evs) :
    AttOk (tr ++ evs) k p := by
  cases p <;> simp only [AttOk] at h ⊢
  case off => exact fun a ha => (List.mem_append.1 ha).elim (h a) (hn a)
  case push => exact ⟨List.mem_append_left _ h.1, h.2.mono hn⟩
  all_goals first
    | exact h.mono hn
    | (obtain ⟨a, h1, h2⟩ := h; exact ⟨a, h1.mono hn, fun b e => (h2 b e).mono⟩)

structure AttInv (s : State w V W) (tr : Trace V W) : Prop where
  att : ∀ k, AttOk tr k (s.snd k)
  busy : ∀ k a, .api (.attempt k a) ∈ tr → s.core.pc a ≠ .idle
  uniq : ∀ k k' a, .api (.attempt k a) ∈ tr → .api (.attempt k' a) ∈ tr → k = k'
  call : ∀ a, .core (.invoke a .push) ∈ tr → ∃ k, .api (.attempt k a) ∈ tr

/-- A step that starts no attempt. -/
theorem AttInv.other {t : State w V W} {evs : Trace V W} (h : AttInv s tr) (hn : ∀ k b, .api (.attempt k b) ∉ evs)
    (hi : ∀ a, .core (.invoke a .push) ∉ evs) (hc : ∀ a, s.core.pc a ≠ .idle → t.core.pc a ≠ .idle)
    (ha : ∀ k, t.snd k = s.snd k ∨ AttOk (tr ++ evs) k (t.snd k)) : AttInv t (tr ++ evs) where
  att k := by
    rcases ha k with e | e
    · rw [e]; exact (h.att k).mono (hn k)
    · exact e
  busy k a hk := hc a (h.busy k a ((List.mem_append.1 hk).resolve_right (hn k a)))
  uniq k k' a hk hk' := h.uniq k k' a ((List.mem_append.1 hk).resolve_right (hn k a)) ((List.mem_append.1 hk').resolve_right (hn k' a))
  call a hk := by
    obtain ⟨k, hk⟩ := h.call a ((List.mem_append.1 hk).resolve_right (hi a))
    exact ⟨k, List.mem_append_left _ hk⟩

theorem AttInv.sgoto {t : State w V W} {evs : Trace V W} {p : SPC} (h : AttInv s tr) (k : Nat) (hn : ∀ k b, .api (.attempt k b) ∉ evs)
    (hi : ∀ a, .core (.invoke a .push) ∉ evs) (hc : ∀ a, s.core.pc a ≠ .idle → t.core.pc a ≠ .idle)
    (ht : t.snd = upd s.snd k p) (ha : AttOk tr k (s.snd k) → AttOk (tr ++ evs) k p) : AttInv t (tr ++ evs) := by
  refine h.other hn hi hc fun j => ?_
  rw [ht, upd_apply]
  split
  · rename_i e; subst e; exact .inr (ha (h.att j))
  · exact .inl rfl

/-- A step that starts an attempt. -/
theorem AttInv.start {t : State w V W} {evs : Trace V W} {k : Nat} {a : OpId} {att : Att} (h : AttInv s tr)
    (hk : .api (.attempt k a) ∈ evs) (hn : ∀ j b, .api (.attempt j b) ∈ evs → j = k ∧ b = a)
    (hi : ∀ b, .core (.invoke b .push) ∈ evs → b = a) (hc : ∀ a, s.core.pc a ≠ .idle → t.core.pc a ≠ .idle)
    (ha : s.core.pc a = .idle) (ha' : t.core.pc a ≠ .idle) (ht : t.snd = upd s.snd k (.push a att))
    (hp : OthersFull tr k none) : AttInv t (tr ++ evs) where
  att j := by
    rw [ht, upd_apply]
    split
    · rename_i e; subst e
      refine ⟨List.mem_append_right _ hk, fun b hb hj => ?_⟩
      rcases List.mem_append.1 hj with hj | hj
      · exact List.mem_append_left _ (hp b (by simp) hj)
      · exact absurd (by rw [(hn _ _ hj).2]) hb
    · rename_i e
      exact (h.att j).mono fun b hb => e (hn _ _ hb).1
  busy j b hj := by
    rcases List.mem_append.1 hj with hj | hj
    · exact hc b (h.busy j b hj)
    · rw [(hn _ _ hj).2]; exact ha'
  uniq j j' b hj hj' := by
    rcases List.mem_append.1 hj with hj | hj <;> rcases List.mem_append.1 hj' with hj' | hj'
    · exact h.uniq j j' b hj hj'
    · rw [(hn _ _ hj').2] at hj; exact absurd ha (h.busy _ _ hj)
    · rw [(hn _ _ hj).2] at hj'; exact absurd ha (h.busy _ _ hj')
    · rw [(hn _ _ hj).1, (hn _ _ hj').1]
  call b hb := by
    rcases List.mem_append.1 hb with hb | hb
    · obtain ⟨k, hk⟩ := h.call b hb
      exact ⟨k, List.mem_append_left _ hk⟩
    · rw [hi b hb]; exact ⟨k, List.mem_append_right _ hk⟩

theorem AttOk.ended {k : Nat} {a : OpId} {att : Att} {evs : Trace V W} {p : SPC} (hp : p.over = true) (h : AttOk tr k (.push a att))
    (hn : ∀ k b, .api (.attempt k b) ∉ evs) {r : Ret} (hr : .core (.ret a r) ∈ evs) (h1 : r = .pushed → .api (.retSend k (.ok a)) ∈ evs)
    (h2 : r = .closed → .api (.retSend k .closed) ∈ evs)
    (h3 : r ≠ .pushed → r ≠ .closed → r ≠ .full → .api (.retSend k .panicked) ∈ evs) : AttOk (tr ++ evs) k p := by
  have : ∃ a, OthersFull (tr ++ evs) k a ∧ ∀ b, a = some b → Ended (tr ++ evs) k b := by
    refine ⟨some a, h.2.mono (hn k), ?_⟩
    rintro b ⟨⟩
    exact ⟨r, List.mem_append_right _ hr, fun e => List.mem_append_right _ (h1 e), fun e => List.mem_append_right _ (h2 e),
      fun e e' e'' => List.mem_append_right _ (h3 e e' e'')⟩
  cases p <;> simp [SPC.over] at hp <;> exact this

theorem AttOk.full {k : Nat} {a : OpId} {att : Att} {evs : Trace V W} (h : AttOk tr k (.push a att))
    (hn : ∀ k b, .api (.attempt k b) ∉ evs) (hr : .core (.ret a .full) ∈ evs) : OthersFull (tr ++ evs) k none := by
  intro b _ hb
  by_cases e : b = a
  · subst e; exact List.mem_append_right _ hr
  · exact List.mem_append_left _ (h.2 b (by simpa using e) ((List.mem_append.1 hb).resolve_right (hn _ _)))

theorem ExecM.attInv {m : Bool} (h : ExecM m c tr s) : AttInv s tr := by
  refine ExecM.ind (P := fun tr s => AttInv s tr) ?_ (fun _ _ _ _ _ ih _ => ⟨ih.att, ih.busy, ih.uniq, ih.call⟩)
    (fun _ _ _ _ _ ih h _ => ⟨ih.att, fun k a hk => by simpa only [h] using ih.busy k a hk, ih.uniq, ih.call⟩) ?_ ?_ ?_ ?_ tr s h
  · constructor <;> simp [State.init, AttOk]
  · intro tr s t e _ ih hm
    have hf := hm.frame.1
    cases hm
    case forgetSend k a hp =>
      refine ih.sgoto k (by simp) (by simp) (fun a h => h) rfl fun ha => ?_
      rw [hp] at ha
      exact ha.mono (by simp)
    all_goals exact ih.other (by simp) (by simp) (fun a h => h) fun k => .inl rfl
  · intro tr s act s1 evs r t es he ih h1 hr hm
    have hev := core_evs h1
    have hc : ∀ a, s.core.pc a ≠ .idle → s1.pc a ≠ .idle := fun a ha => core_not_idle h1 (.inl ha)
    cases hm
    case send k h wait a hp hh =>
      obtain ⟨hid, rfl⟩ := invoke_idle h1
      refine AttInv.start (k := k) (a := a) ih (by simp) (by simp) (by simp) hc hid (core_not_idle h1 (.inr rfl)) rfl ?_
      have := ih.att k
      rw [hp] at this
      exact fun b _ hb => absurd hb (this b)
    case retry k att a hp =>
      obtain ⟨hid, rfl⟩ := invoke_idle h1
      refine AttInv.start (k := k) (a := a) ih (by simp) (by simp) (by simp) hc hid (core_not_idle h1 (.inr rfl)) rfl ?_
      have := ih.att k
      rw [hp] at this
      exact this
    case pushOk k a att i hp =>
      have hret := hev.ret' _ hr
      rw [actOp_push] at hret
      refine ih.sgoto k (by simp) (by simp [hev.inv]) hc rfl fun ha => ?_
      rw [hp] at ha
      exact AttOk.ended rfl ha (by simp) (r := .pushed) (by simpa using hret) (by simp) (by simp) (by simp)
    case pushClosed k a att i hp =>
      have hret := hev.ret' _ hr
      rw [actOp_push] at hret
      refine ih.sgoto k (by simp) (by simp [hev.inv]) hc rfl fun ha => ?_
      rw [hp] at ha
      exact AttOk.ended rfl ha (by simp) (r := .closed) (by simpa using hret) (by simp) (by simp) (by simp)
    case pushPanic k a att i r hp _ _ _ =>
      have hret := hev.ret' _ hr
      rw [actOp_push] at hret
      refine ih.sgoto k (by simp) (by simp [hev.inv]) hc rfl fun ha => ?_
      rw [hp] at ha
      exact AttOk.ended rfl ha (by simp) (r := r) (by simpa using hret) (by simp_all) (by simp_all) (by simp)
    case fullOnly k a i hp =>
      have hret := hev.ret' _ hr
      rw [actOp_push] at hret
      refine ih.sgoto k (by simp) (by simp [hev.inv]) hc rfl fun ha => ?_
      rw [hp] at ha
      exact AttOk.ended rfl ha (by simp) (r := .full) (by simpa using hret) (by simp) (by simp) (by simp)
    case fullStart k a i hp | fullBlocking k a i hp _ | fullAsync k a i hp _ =>
      have hret := hev.ret' _ hr
      rw [actOp_push] at hret
      refine ih.sgoto k (by simp) (by simp [hev.inv]) hc rfl fun ha => ?_
      rw [hp] at ha
      exact ha.full (by simp) (by simpa using hret)
    case dropSend k a hp =>
      refine ih.sgoto k (by simp) (by simp [hev.inv]) hc rfl fun ha => ?_
      rw [hp] at ha
      exact ha.mono (by simp)
    case pushStay k a att i hp =>
      exact ih.other (by simp) (by simp [hev.inv]) hc fun k => .inl rfl
    all_goals exact ih.other (by simp) (by simp [hev.inv]) hc fun k => .inl rfl
  · intro tr s act s1 evs t es he ih h1 hm
    cases hm
    case notify k o hp =>
      refine ih.sgoto k (by simp) (by simp) (fun a h => h) rfl fun ha => ?_
      rw [hp] at ha; exact ha.mono (by simp)
    case notifyEnd k o hp _ =>
      refine ih.sgoto k (by simp) (by simp) (fun a h => h) rfl fun ha => ?_
      rw [hp] at ha; exact ha.mono (by simp)
    all_goals exact ih.other (by simp) (by simp) (fun a h => h) fun k => .inl rfl
  · intro tr s act s1 evs t es he ih h1 hm
    cases hm
    case start k v hp | startWait k _ hp _ | startNotified k _ hp _ | contWait k _ hp _ | contNotified k _ hp _ | cancel k hp _ =>
      refine ih.sgoto k (by simp) (by simp) (fun a h => h) rfl fun ha => ?_
      rw [hp] at ha; exact OthersFull.mono ha (by simp)
    case cont k v hp =>
      refine ih.sgoto k (by simp) (by simp) (fun a h => h) rfl fun ha => ?_
      rcases hp with hp | hp <;> rw [hp] at ha <;> exact OthersFull.mono ha (by simp)
    case startClosed k _ hp _ | contClosed k _ hp _ =>
      refine ih.sgoto k (by simp) (by simp) (fun a h => h) rfl fun ha => ?_
      rw [hp] at ha; exact ⟨none, OthersFull.mono ha (by simp), by simp⟩
    case timeout k hp _ | startPanic k _ r hp _ _ | contPanic k _ r hp _ _ | dropEnd k _ r hp _ =>
      refine ih.sgoto k (by simp) (by simp) (fun a h => h) rfl fun ha => ?_
      rw [hp] at ha; exact ⟨none, OthersFull.mono ha (by simp), by simp⟩
    all_goals exact ih.other (by simp) (by simp) (fun a h => h) fun k => .inl rfl

end Thingbuf.Chan
