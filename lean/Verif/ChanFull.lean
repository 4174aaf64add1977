import Verif.ChanTryProps
import Verif.ChanFineProps

/-!
# A send goes to sleep only after it found the channel full

The last attempt that a send call made before it went to sleep found the channel full.
-/

namespace Thingbuf.Chan

variable {w : Nat} {V W : Type} {c : Config W} {tr : Trace V W} {s : State w V W}

/-- `a` is the last attempt of send call `k`, and `y` is what happened since. -/
def LastTry (tr : Trace V W) (k : Nat) (a : OpId) (y : Trace V W) : Prop := ∃ x, tr = x ++ .api (.attempt k a) :: y ∧ ∀ b, .api (.attempt k b) ∉ y

/-- What the control state of a send call says about its last attempt. -/
def TryOk (tr : Trace V W) (k : Nat) : SPC → Prop
  | .push a _ => ∃ y, LastTry tr k a y
  | .toStart | .starting | .waiting | .toCont | .conting => ∃ a y, LastTry tr k a y ∧ .core (.ret a .full) ∈ y
  | _ => True

theorem LastTry.mono {k : Nat} {a : OpId} {y l : Trace V W} (h : LastTry tr k a y) (hl : ∀ b, .api (.attempt k b) ∉ l) : LastTry (tr ++ l) k a (y ++ l) := by
  obtain ⟨x, rfl, hy⟩ := h
  exact ⟨x, by simp, fun b hb => (List.mem_append.1 hb).elim (hy b) (hl b)⟩

theorem TryOk.mono {k : Nat} {p : SPC} {l : Trace V W} (h : TryOk tr k p) (hl : ∀ b, .api (.attempt k b) ∉ l) : TryOk (tr ++ l) k p := by
  cases p
  case push a att => exact h.imp' (· ++ l) fun _ h => h.mono hl
  case toStart | starting | waiting | toCont | conting =>
    obtain ⟨a, y, h1, h2⟩ := h
    exact ⟨a, y ++ l, h1.mono hl, List.mem_append_left _ h2⟩
  all_goals trivial

theorem TryOk.full {k : Nat} {a : OpId} {att : Att} {l : Trace V W} (h : TryOk tr k (.push a att)) (hl : ∀ b, .api (.attempt k b) ∉ l)
    (hr : .core (.ret a .full) ∈ l) : ∃ a y, LastTry (tr ++ l) k a y ∧ .core (.ret a .full) ∈ y := by
  obtain ⟨y, hy⟩ := h
  exact ⟨a, y ++ l, hy.mono hl, List.mem_append_right _ hr⟩

theorem tryOk_upd {snd : Nat → SPC} {j : Nat} {p : SPC} {l : Trace V W} (h : ∀ k, TryOk tr k (snd k)) (h1 : ∀ k, j ≠ k → ∀ b, .api (.attempt k b) ∉ l)
    (h2 : TryOk (tr ++ l) j p) (k : Nat) : TryOk (tr ++ l) k (upd snd j p k) := by
  rw [upd_apply]
  split
  · rename_i e; subst e; exact h2
  · rename_i e; exact (h k).mono (h1 k (Ne.symm e))

theorem ExecM.tryOk {m : Bool} (h : ExecM m c tr s) : ∀ k, TryOk tr k (s.snd k) := by
  refine ExecM.ind (P := fun tr s => ∀ k, TryOk tr k (s.snd k)) ?_ (fun _ _ _ _ _ ih _ => ih) (fun _ _ _ _ _ ih _ _ => ih) ?_ ?_ ?_ ?_ tr s h
  · intro k; trivial
  · intro tr s t e he ih hm
    cases hm
    case forgetSend => exact tryOk_upd ih (by simp) trivial
    all_goals exact fun k => (ih k).mono (by simp)
  · intro tr s act s1 evs r t es he ih h1 hr hm
    have hev := core_evs h1
    cases hm
    case send j x wait a hp hx => exact tryOk_upd ih (by simp; exact fun k hk e => absurd e.symm hk) ⟨[], tr ++ (evs.map .core ++ [.api (.callSend j x wait)]), by simp, by simp⟩
    case retry j att a hp => exact tryOk_upd ih (by simp; exact fun k hk e => absurd e.symm hk) ⟨[], tr ++ evs.map .core, by simp, by simp⟩
    case fullStart j a i hp =>
      have := ih j; rw [hp] at this
      exact tryOk_upd ih (by simp) (this.full (by simp) (by have := hev.ret' _ hr; simpa using this))
    case fullBlocking j a i hp hb =>
      have := ih j; rw [hp] at this
      exact tryOk_upd ih (by simp) (this.full (by simp) (by have := hev.ret' _ hr; simpa using this))
    case pushOk | pushClosed | fullOnly | fullAsync | pushPanic | dropSend => exact tryOk_upd ih (by simp) trivial
    all_goals exact fun k => (ih k).mono (by simp)
  · intro tr s act s1 evs t es he ih h1 hm
    cases hm
    case notify | notifyEnd => exact tryOk_upd ih (by simp) trivial
    all_goals exact fun k => (ih k).mono (by simp)
  · intro tr s act s1 evs t es he ih h1 hm
    have keep : ∀ {j : Nat} {p : SPC} {l : Trace V W}, TryOk tr j (s.snd j) → (∀ k b, .api (.attempt k b) ∉ l) →
        (TryOk (tr ++ l) j (s.snd j) → TryOk (tr ++ l) j p) → ∀ k, TryOk (tr ++ l) k (upd s.snd j p k) := fun h2 h3 h4 =>
      tryOk_upd ih (fun k _ => h3 k) (h4 (h2.mono (h3 _)))
    cases hm
    case start j v hp => exact keep (ih j) (by simp) (by rw [hp]; exact id)
    case cont j v hp => exact keep (ih j) (by simp) (by rcases hp with hp | hp <;> rw [hp] <;> exact id)
    case startWait j spur hp hn => exact keep (ih j) (by simp) (by rw [hp]; exact id)
    case contWait j spur hp hn => exact keep (ih j) (by simp) (by rw [hp]; exact id)
    case startClosed | startNotified | startPanic | contClosed | contNotified | contPanic | cancel | dropEnd | timeout => exact tryOk_upd ih (by simp) trivial
    all_goals exact fun k => (ih k).mono (by simp)

/-- The last attempt of a call that goes to sleep found the channel full. -/
theorem ExecM.sleep_full {m : Bool} (h : ExecM m c tr s) {pre post : Trace V W} {k : Nat} (htr : tr = pre ++ .api (.sleep k) :: post) :
    ∃ a y, LastTry pre k a y ∧ .core (.ret a .full) ∈ y := by
  obtain ⟨tr0, l, s0, s1, h0, rfl, h1, h2, h3⟩ := h.at_api (e := .sleep k) htr (by simp)
  have key : s1.snd k = .waiting → ∃ a y, LastTry (tr0 ++ l) k a y ∧ .core (.ret a .full) ∈ y := fun hw => by
    have := h2.tryOk k
    rw [hw] at this
    obtain ⟨a, y, ⟨x, hx, hy⟩, hf⟩ := this
    rcases List.eq_nil_or_concat y with rfl | ⟨z, e, rfl⟩
    · cases hf
    · rw [List.concat_eq_append] at hx hy hf
      rw [show x ++ .api (.attempt k a) :: (z ++ [e]) = (x ++ .api (.attempt k a) :: z) ++ [e] by simp] at hx
      obtain ⟨hx2, he⟩ := List.append_inj' hx rfl
      injection he with he
      subst he
      refine ⟨a, z, ⟨x, hx2, fun b hb => hy b (by simp [hb])⟩, by simpa using hf⟩
  cases h1 with
  | api hm hl hr hs => cases hm
  | core es1 es2 h1 hm hl hr hs =>
    have hes : Api.sleep k ∈ es1 ++ Api.sleep k :: es2 := by simp
    generalize es1 ++ Api.sleep k :: es2 = es at hm hes
    generalize hret : coreRet _ = ret at hm
    cases hm <;> simp at hes
  | cell es1 es2 h1 hm hl hr hs =>
    have hes : Api.sleep k ∈ es1 ++ Api.sleep k :: es2 := by simp
    generalize es1 ++ Api.sleep k :: es2 = es at hm hes
    cases hm <;> simp at hes
  | queue es1 es2 h1 hm hl hr hs =>
    have hes : Api.sleep k ∈ es1 ++ Api.sleep k :: es2 := by simp
    generalize es1 ++ Api.sleep k :: es2 = es at hm hes
    cases hm <;> simp at hes
    all_goals
      subst hes
      exact key (by rw [hs]; exact upd_self ..)

/-- A call that waits has gone to sleep and has made no attempt since. -/
def SleptOk (tr : Trace V W) (k : Nat) : SPC → Prop
  | .waiting => ∃ x z, tr = x ++ .api (.sleep k) :: z ∧ ∀ b, .api (.attempt k b) ∉ z
  | _ => True

theorem SleptOk.mono {k : Nat} {p : SPC} {l : Trace V W} (h : SleptOk tr k p) (hl : ∀ b, .api (.attempt k b) ∉ l) : SleptOk (tr ++ l) k p := by
  cases p
  case waiting =>
    obtain ⟨x, z, rfl, hz⟩ := h
    exact ⟨x, z ++ l, by simp, fun b hb => (List.mem_append.1 hb).elim (hz b) (hl b)⟩
  all_goals trivial

theorem sleptOk_upd {snd : Nat → SPC} {j : Nat} {p : SPC} {l : Trace V W} (h : ∀ k, SleptOk tr k (snd k)) (h1 : ∀ k, j ≠ k → ∀ b, .api (.attempt k b) ∉ l)
    (h2 : SleptOk (tr ++ l) j p) (k : Nat) : SleptOk (tr ++ l) k (upd snd j p k) := by
  rw [upd_apply]
  split
  · rename_i e; subst e; exact h2
  · rename_i e; exact (h k).mono (h1 k (Ne.symm e))

theorem ExecM.sleptOk {m : Bool} (h : ExecM m c tr s) : ∀ k, SleptOk tr k (s.snd k) := by
  refine ExecM.ind (P := fun tr s => ∀ k, SleptOk tr k (s.snd k)) ?_ (fun _ _ _ _ _ ih _ => ih) (fun _ _ _ _ _ ih _ _ => ih) ?_ ?_ ?_ ?_ tr s h
  · intro k; trivial
  · intro tr s t e he ih hm
    cases hm
    case forgetSend => exact sleptOk_upd ih (by simp) trivial
    all_goals exact fun k => (ih k).mono (by simp)
  · intro tr s act s1 evs r t es he ih h1 hr hm
    cases hm
    case send | retry => exact sleptOk_upd ih (by simp; exact fun k hk e => absurd e.symm hk) trivial
    case pushOk | pushClosed | fullOnly | fullAsync | pushPanic | dropSend | fullStart | fullBlocking => exact sleptOk_upd ih (by simp) trivial
    all_goals exact fun k => (ih k).mono (by simp)
  · intro tr s act s1 evs t es he ih h1 hm
    cases hm
    case notify | notifyEnd => exact sleptOk_upd ih (by simp) trivial
    all_goals exact fun k => (ih k).mono (by simp)
  · intro tr s act s1 evs t es he ih h1 hm
    cases hm
    case startWait j spur hp hn => exact sleptOk_upd ih (by simp) ⟨tr ++ evs.map .queue, [], by simp, by simp⟩
    case contWait j spur hp hn => exact sleptOk_upd ih (by simp) ⟨tr ++ evs.map .queue, [], by simp, by simp⟩
    case start | cont | startClosed | startNotified | startPanic | contClosed | contNotified | contPanic | cancel | dropEnd | timeout =>
      exact sleptOk_upd ih (by simp) trivial
    all_goals exact fun k => (ih k).mono (by simp)

/-- A call that times out has gone to sleep after its last attempt. -/
theorem ExecM.timeout_slept {m : Bool} (h : ExecM m c tr s) {pre post : Trace V W} {k : Nat} (htr : tr = pre ++ .api (.retSend k .timeout) :: post) :
    c.blocking = true ∧ ∃ x z, pre = x ++ .api (.sleep k) :: z ∧ ∀ b, .api (.attempt k b) ∉ z := by
  obtain ⟨tr0, l, s0, s1, h0, rfl, h1, h2, h3⟩ := h.at_api (e := .retSend k .timeout) htr (by simp)
  cases h1 with
  | api hm hl hr hs => cases hm
  | core es1 es2 h1 hm hl hr hs =>
    have hes : Api.retSend k .timeout ∈ es1 ++ Api.retSend k .timeout :: es2 := by simp
    generalize es1 ++ Api.retSend k .timeout :: es2 = es at hm hes
    generalize hret : coreRet _ = ret at hm
    cases hm <;> simp at hes
  | cell es1 es2 h1 hm hl hr hs =>
    have hes : Api.retSend k .timeout ∈ es1 ++ Api.retSend k .timeout :: es2 := by simp
    generalize es1 ++ Api.retSend k .timeout :: es2 = es at hm hes
    cases hm <;> simp at hes
  | queue es1 es2 h1 hm hl hr hs =>
    generalize hes : es1 ++ Api.retSend k .timeout :: es2 = es at hm
    cases hm
    case timeout j hj hb =>
      have hk : es1 = [] ∧ es2 = [] ∧ k = j := by
        cases es1 with
        | nil => simp at hes; exact ⟨rfl, hes.2, hes.1⟩
        | cons => simp at hes
      obtain ⟨rfl, rfl, rfl⟩ := hk
      have h4 := h0.sleptOk k
      rw [hj] at h4
      have h5 := h4.mono (l := l) (by rw [hl]; simp)
      exact ⟨hb, h5⟩
    all_goals
      have hes' := congrArg (Api.retSend k .timeout ∈ ·) hes
      simp at hes'

/-- A moment between the last attempt and the sleep at which the channel was full. -/
theorem full_between {cap : Nat} {mm : Prop} (h : Facts mm w cap (coreOf tr)) {pre mid post : Trace V W} {k : Nat} {a : OpId}
    (htr : tr = pre ++ .api (.attempt k a) :: (mid ++ .api (.sleep k) :: post)) (hm : ∀ b, .api (.attempt k b) ∉ mid)
    (hs : ∃ a' y, LastTry (pre ++ .api (.attempt k a) :: mid) k a' y ∧ .core (.ret a' .full) ∈ y) :
    ∃ m, m <+: mid ∧ nRes (coreOf (pre ++ .api (.attempt k a) :: m)) = nDeq (coreOf (pre ++ .api (.attempt k a) :: m)) + cap := by
  obtain ⟨a', y, ⟨x, hx, hy⟩, hf⟩ := hs
  have : a' = a ∧ y = mid := by
    rcases List.append_eq_append_iff.1 hx with ⟨l, h5, h6⟩ | ⟨l, h5, h6⟩
    · cases l with
      | nil => simp at h6; exact ⟨h6.1.symm, h6.2.symm⟩
      | cons z l => injection h6 with h7 h8; subst h8; exact (hm a' (by simp)).elim
    · cases l with
      | nil => simp at h6; exact ⟨h6.1, h6.2⟩
      | cons z l => injection h6 with h7 h8; subst h8; exact (hy a (by simp)).elim
  obtain ⟨rfl, rfl⟩ := this
  obtain ⟨m, z, rfl⟩ := List.append_of_mem hf
  refine ⟨m, ⟨_, rfl⟩, ?_⟩
  exact (h.full_truthful (pre := coreOf (pre ++ .api (.attempt k a') :: m)) (post := coreOf (z ++ .api (.sleep k) :: post)) (a := a') (by
    rw [htr, show pre ++ .api (.attempt k a') :: (m ++ .core (.ret a' .full) :: z ++ .api (.sleep k) :: post) =
      (pre ++ .api (.attempt k a') :: m) ++ (.core (.ret a' .full) :: (z ++ .api (.sleep k) :: post)) by simp, coreOf_append]
    rfl)).2.2

end Thingbuf.Chan
