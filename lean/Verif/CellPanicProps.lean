import Verif.CellPanic
import Verif.CellProps

/-!
# Wakers that panic: C56 for the receiver's wait cell

`PExec c bad tr s`: a wait cell was used, in any interleaving, by receivers and senders; `bad v` says that waking `v` panics.
-/

namespace Thingbuf.Cell

variable {W : Type} {c : Config} {bad : W → Bool} {tr : PTrace W} {s : State W}

/-- The operation has returned, or a panic came out of it. -/
def PReturned (tr : PTrace W) (a : OpId) : Prop :=
  (∃ r, .ev (.retWait a r) ∈ tr) ∨ (∃ b, .ev (.retNotify a b) ∈ tr) ∨ .ev (.assertFailed a) ∈ tr ∨ .panic a ∈ tr

/-- Every operation that has been called is over. -/
def PQuiescent (tr : PTrace W) : Prop :=
  ∀ a, (.ev (.callWait a) ∈ tr ∨ ∃ c, .ev (.callNotify a c) ∈ tr) → PReturned tr a

/-- There is one receiver. -/
def POneRx (tr : PTrace W) : Prop :=
  ∀ pre a post, tr = pre ++ .ev (.callWait a) :: post → ∀ b, .ev (.callWait b) ∈ pre → PReturned pre b

theorem Like.returned {p : PTrace W} {t : Trace W} (h : Like p t) {a : OpId} (hr : PReturned p a) : Returned t a := by
  rcases hr with ⟨r, hr⟩ | ⟨b, hr⟩ | hr | hr
  · exact .inl ⟨r, h.mem hr⟩
  · exact .inr (.inl ⟨b, h.mem hr⟩)
  · exact .inr (.inr (h.mem hr))
  · induction h with
    | nil => cases hr
    | cons h1 h2 ih =>
      rcases List.mem_cons.1 hr with h3 | h3
      · subst h3
        cases h1 with
        | notify => exact .inr (.inl ⟨true, by simp⟩)
        | wait _ r => exact .inl ⟨r, by simp⟩
      · rcases ih h3 with ⟨r, h4⟩ | ⟨b, h4⟩ | h4
        · exact .inl ⟨r, List.mem_append_right _ h4⟩
        · exact .inr (.inl ⟨b, List.mem_append_right _ h4⟩)
        · exact .inr (.inr (List.mem_append_right _ h4))

/-- **C56**, for the receiver. What happened is what happens without panics, with each call that panicked having woken its
waker and returned; the cell is in the same state. So all that is proved of the cell holds of it. -/
theorem C56_as_if_returned (h : PExec c bad tr s) : ∃ tr', Exec c tr' s ∧ Like tr tr' := h.like

/-- **C56**, for the receiver. Wakers may panic when they are woken: all the same, when no call is in progress, the receiver that
was told to wait has been woken if a notification or close was called after that. -/
theorem C56_receiver_woken (hstd : c.std = true) (h : PExec c bad tr s) (hone : POneRx tr)
    (hass : ∀ d, .ev (.assertFailed d) ∉ tr) (hq : PQuiescent tr) {pre post : PTrace W} {a b : OpId} {x : Bool}
    (htr : tr = pre ++ .ev (.retWait a .wait) :: post) (hlast : ∀ a', .ev (.retWait a' .wait) ∉ post)
    (hcall : .ev (.callNotify b x) ∈ post) :
    ∃ v, .ev (.mk a v) ∈ pre ∧ ∃ d, .ev (.wake d v) ∈ post := by
  obtain ⟨t, he, hl⟩ := h.like
  have hone' : OneRx t := by
    intro p1 a1 p2 ht b1 hb
    subst ht
    obtain ⟨q1, q2, hq', h1, h2⟩ := hl.unsplit rfl
    exact h1.returned (hone q1 a1 q2 hq' b1 (h1.of_mem rfl hb))
  have hq' : Quiescent t := by
    intro a1 ha
    refine hl.returned (hq a1 ?_)
    rcases ha with ha | ⟨c1, ha⟩
    · exact .inl (hl.of_mem rfl ha)
    · exact .inr ⟨c1, hl.of_mem rfl ha⟩
  have hass' : ∀ d, .assertFailed d ∉ t := fun d hd => hass d (hl.of_mem rfl hd)
  rw [htr] at hl
  obtain ⟨t1, t2, rfl, h1, h2⟩ := hl.split
  obtain ⟨v, h3, d, h4⟩ := C20_quiescent hstd he hone' hass' hq' rfl (fun a' ha => hlast a' (h2.of_mem rfl ha)) (h2.mem hcall)
  exact ⟨v, h1.of_mem rfl h3, d, h2.of_mem rfl h4⟩

theorem PExec.of_trace {acts : List (Act W)} (h : (prunActs c bad (State.init W) acts).map Prod.snd = some tr) :
    ∃ s, PExec c bad tr s := by
  simp only [Option.map_eq_some_iff, Prod.exists] at h
  obtain ⟨s, tr', h1, rfl⟩ := h
  exact ⟨s, by simpa using PExec.init.run h1⟩

/-- The receiver registers waker 10, whose wake panics. A sender notifies: the panic comes out of its call. -/
def panicTr : PTrace Nat :=
  [.ev (.callWait 0), .ev (.mk 0 10), .ev (.accBegin 0), .ev (.accEnd 0), .ev (.register 0 10), .ev (.retWait 0 .wait),
   .ev (.callNotify 1 false), .ev (.signal 1 false), .ev (.accBegin 1), .ev (.accEnd 1), .ev (.wake 1 10), .panic 1]

example : ∃ s, PExec debugBuild (· == 10) panicTr s ∧ POneRx panicTr ∧ (∀ d, .ev (.assertFailed d) ∉ panicTr) ∧
    PQuiescent panicTr ∧ .panic 1 ∈ panicTr ∧ ∃ pre post, panicTr = pre ++ .ev (.retWait 0 .wait) :: post ∧
      (∀ a', .ev (.retWait a' .wait) ∉ post) ∧ .ev (.callNotify 1 false) ∈ post := by
  obtain ⟨s, hs⟩ := PExec.of_trace (c := debugBuild) (bad := (· == 10)) (tr := panicTr)
    (acts := [.callWait 0, .run 0, .mk 0 10, .run 0, .run 0, .run 0, .callNotify 1 false, .run 1, .run 1, .run 1, .run 1, .run 1])
    (by decide +kernel)
  refine ⟨s, hs, ?_, by simp [panicTr], ?_, by decide, panicTr.take 5, panicTr.drop 6, by decide, by simp [panicTr], by decide⟩
  · intro pre a post h b hb
    cases pre with
    | nil => cases hb
    | cons x pre =>
      exfalso
      have : PEv.ev (.callWait a) ∈ panicTr.tail := by rw [h]; simp
      simp [panicTr] at this
  · intro a ha
    have : a = 0 ∨ a = 1 := by
      rcases ha with ha | ⟨c, ha⟩ <;> simp [panicTr] at ha
      · exact .inl ha
      · exact .inr ha.1
    rcases this with rfl | rfl
    · exact .inl ⟨.wait, by decide⟩
    · exact .inr (.inr (.inr (by decide)))

end Thingbuf.Cell
