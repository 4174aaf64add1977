import Verif.ChanSleepProps
import Verif.ChanWakeProps

/-!
# C55: when everything sleeps, the work is done

The vocabulary of C55, in terms of events, and the proof that in a channel at rest whose receiver sleeps nothing is left.
-/

namespace Thingbuf.Chan

variable {w : Nat} {V W : Type} {c : Config W} {tr : Trace V W} {s : State w V W}

/-- The receiver is asleep: its last poll, with waker `v`, returned `Pending`, and `v` has not been woken since that poll was called. -/
def RxAsleep (tr : Trace V W) (v : W) : Prop :=
  ∃ pre mid post, tr = pre ++ .api (.callPoll v) :: mid ++ .api (.retPoll .pending) :: post ∧
    (∀ u, .api (.callPoll u) ∉ mid ∧ .api (.callPoll u) ∉ post) ∧ ∀ d, .cell (.wake d v) ∉ mid ++ post

/-- Nothing is half way through: every send call has returned, or was cancelled, or is asleep; no code of the user panicked in one; every `SendRef` and every `RecvRef` has been
dropped, and the drop is over; and so is that of the last `Sender`, if it has begun. -/
structure AtRest (tr : Trace V W) : Prop where
  settled : Settled tr
  noPanic : ∀ k, .api (.retSend k .panicked) ∉ tr
  sent : ∀ k a, .api (.retSend k (.ok a)) ∈ tr → .api (.dropSendEnd k) ∈ tr
  read : ∀ b ∈ received tr, .api (.dropRecvEnd b) ∈ tr
  lastTx : ¬ LastTxEnding tr

/-- No `SendRef` is half way through its drop. -/
theorem ExecM.rest_sendEnding {m : Bool} (h : ExecM m c tr s) (hr : AtRest tr) (k : Nat) : ¬ SendEnding tr k := by
  rintro ⟨h1, h2⟩
  have hl := h.life k
  have h1 := (mem_life (tr := tr) (e := .dropSend k) rfl).2 h1
  have h2 : .dropSendEnd k ∉ Chan.life k (apiOf tr) := fun hc => h2 ((mem_life rfl).1 hc)
  have h3 : ∀ a, .retSend k (.ok a) ∉ Chan.life k (apiOf tr) := fun a ha => h2 ((mem_life rfl).2 (hr.sent k a ((mem_life rfl).1 ha)))
  cases hp : s.snd k <;> rw [hp] at hl <;> simp only [LifeOk] at hl
  case off => rw [hl] at h1; cases h1
  case done =>
    obtain ⟨_, _, ⟨r, hr, hl⟩ | hl | ⟨a, hl⟩⟩ := hl <;> rw [hl] at h1 h2 h3 <;> simp at h1 h2 h3
  case toNotify => obtain ⟨_, _, a, hl⟩ := hl; rw [hl] at h3; exact h3 a (by simp)
  case notifying => obtain ⟨_, _, a, hl⟩ := hl; rw [hl] at h3; exact h3 a (by simp)
  all_goals (obtain ⟨_, _, hl⟩ := hl; rw [hl] at h1 h3; simp at h1 h3)

/-- At rest every message has been sent completely. -/
theorem ExecM.rest_committed {m : Bool} {mm : Prop} (h : ExecM m c tr s) (hc : Facts mm w c.cap (coreOf tr)) (hr : AtRest tr) (hd : ∀ b, .api (.dropRx b) ∉ tr) {a : OpId} (ha : a ∈ resOps (coreOf tr)) :
    Committed (coreOf tr) a := by
  obtain ⟨k, -, h2, -⟩ := h.sender hc ha
  rcases h2 with ⟨att, h2⟩ | h2 | h2
  · have hl := h.life k
    rw [h2] at hl
    obtain ⟨x, wt, hl⟩ := hl
    rcases hr.settled.1 k x wt ((mem_life rfl).1 (by rw [hl]; simp)) with ⟨r, h1⟩ | h1 | h1
    · have := (mem_life (tr := tr) (e := .retSend k r) rfl).2 h1
      rw [hl] at this; simp at this
    · have := (mem_life (tr := tr) (e := .cancelled k) rfl).2 h1
      rw [hl] at this; simp at this
    · have := (h.asleep_queued hd hr.settled.2 h1).2
      rw [h2] at this; cases this
  · refine h.drop_commits (k := k) ?_ h2
    have h3 := (mem_life (tr := tr) (e := .dropSendEnd k) rfl).2 (hr.sent k a h2)
    have hl := h.life k
    refine (mem_life rfl).1 ?_
    cases hp : s.snd k <;> rw [hp] at hl <;> simp only [LifeOk] at hl
    case off => rw [hl] at h3; cases h3
    case done =>
      obtain ⟨_, _, ⟨r, hr, hl⟩ | hl | ⟨a, hl⟩⟩ := hl <;> rw [hl] at h3 ⊢ <;> simp at h3 ⊢
    case toNotify => obtain ⟨_, _, a, hl⟩ := hl; rw [hl] at h3 ⊢; simp
    case notifying => obtain ⟨_, _, a, hl⟩ := hl; rw [hl] at h3 ⊢; simp
    all_goals (obtain ⟨_, _, hl⟩ := hl; rw [hl] at h3; simp at h3)
  · exact absurd h2 (hr.noPanic k)

/-- In a channel at rest whose receiver sleeps every message has been taken. -/
theorem Run.rest_empty (h : Run c tr s) (hr : AtRest tr) (hd : ∀ b, .api (.dropRx b) ∉ tr) {v : W} (hv : RxAsleep tr v) :
    nDeq (coreOf tr) = nRes (coreOf tr) := by
  refine Nat.le_antisymm (h.core.bounds (List.prefix_refl _)).1 (Nat.le_of_not_lt fun hlt => ?_)
  obtain ⟨pre, mid, post, htr, h1, h2⟩ := hv
  have hget : (resOps (coreOf tr))[nDeq (coreOf tr)]? = some _ := List.getElem?_eq_getElem hlt
  obtain ⟨d, hw⟩ := C31_no_lost_wakeup h htr h1 hd (h.exec.rest_sendEnding hr) hr.lastTx
    ⟨_, hget, h.exec.rest_committed h.core.facts hr hd (List.mem_of_getElem? hget)⟩
  exact h2 d hw

/-- A drop of a `RecvRef` that has ended has begun. -/
theorem ExecM.recvEnd_began {m : Bool} (h : ExecM m c tr s) {b : OpId} (hb : .api (.dropRecvEnd b) ∈ tr) : .api (.dropRecv b) ∈ tr := by
  have := h.refHist b
  cases hp : s.ref b <;> rw [hp] at this <;> first | exact absurd hb this.2 | exact this.1

/-! ### Deciding the hypotheses -/

/-- The last poll and what followed. -/
def rxAsleepB (tr : Trace Nat Nat) (v : Nat) : Bool :=
  let post := (tr.reverse.takeWhile fun | .api (.callPoll _) => false | _ => true).reverse
  decide (tr.reverse.find? (fun | .api (.callPoll _) => true | _ => false) = some (.api (.callPoll v))) && decide (.api (.retPoll .pending) ∈ post) &&
    post.all fun | .cell (.wake _ u) => u != v | _ => true

theorem rxAsleepB_imp {tr : Trace Nat Nat} {v : Nat} (h : rxAsleepB tr v = true) : RxAsleep tr v := by
  simp only [rxAsleepB, Bool.and_eq_true, decide_eq_true_eq, List.all_eq_true] at h
  obtain ⟨⟨h1, h2⟩, h3⟩ := h
  rw [List.find?_eq_some_iff_append] at h1
  obtain ⟨-, as, bs, h4, h5⟩ := h1
  have htw : (tr.reverse.takeWhile fun | .api (.callPoll _) => false | _ => true) = as := by
    rw [h4, List.takeWhile_append_of_pos]
    · simp
    · intro e he
      have := h5 e he
      split <;> simp_all
  rw [htw] at h2 h3
  obtain ⟨mid, post, h6⟩ := List.append_of_mem h2
  have htr : tr = bs.reverse ++ .api (.callPoll v) :: as.reverse := by
    have := congrArg List.reverse h4
    simpa using this
  have hno : ∀ u, .api (.callPoll u) ∉ as.reverse := fun u hu => by simpa using h5 _ (List.mem_reverse.1 hu)
  refine ⟨bs.reverse, mid, post, by rw [htr, h6]; simp, fun u => ⟨fun hu => hno u (by rw [h6]; simp [hu]), fun hu => hno u (by rw [h6]; simp [hu])⟩, fun d hd => ?_⟩
  have := h3 (.cell (.wake d v)) (by rw [h6]; rcases List.mem_append.1 hd with hd | hd <;> simp [hd])
  simp at this

def atRestB (tr : Trace Nat Nat) : Bool :=
  settledB tr && (tr.all fun
    | .api (.retSend _ .panicked) => false
    | .api (.retSend k (.ok _)) => decide (.api (.dropSendEnd k) ∈ tr)
    | _ => true) && ((received tr).all fun b => decide (.api (.dropRecvEnd b) ∈ tr)) && (senders tr != [] || decide (.api .lastTxDropped ∈ tr))

theorem atRestB_imp {tr : Trace Nat Nat} (h : atRestB tr = true) : AtRest tr := by
  simp only [atRestB, Bool.and_eq_true, List.all_eq_true] at h
  obtain ⟨⟨⟨h1, h2⟩, h3⟩, h4⟩ := h
  refine ⟨settledB_imp h1, fun k hk => ?_, fun k a hk => ?_, fun b hb => by simpa using h3 b hb, fun hl => ?_⟩
  · simpa using h2 _ hk
  · simpa using h2 _ hk
  · have := hl.1
    have := hl.2
    simp_all

end Thingbuf.Chan
