import Verif.ChanLinRecv
import Verif.ChanFineProps
import Verif.ChanCloseProps
/-
C59: the channel is linearizable. The sequential channel and the meaning of "linearizable" are in `ChanLinSpec.lean`.
-/
namespace Thingbuf.Chan

variable {w : Nat} {V W : Type} {c : Config W} {tr : Trace V W} {s : State w V W} {f : FState w V W}

/-- **C59**. Every concurrent history of a channel, with any number of `Sender`s, is linearizable: one can mark in it a
point for every send and receive call that returned, between its beginning and its return, such that a sequential
channel that performs the calls one after the other in the order of the points gives each of them the result it had.
A message becomes available when its `SendRef` is dropped; the channel is closed at a point in the drop of the
`Receiver` or the last `Sender`. -/
theorem C59_linearizable (h : Run c tr s) : ∃ L, ChanLinearizes c.cap tr L := h.linearizes

theorem apiOf_quiet (tr : Trace V W) : apiOf (quiet tr) = apiOf tr := by
  induction tr with
  | nil => rfl
  | cons e tr ih =>
    rcases e with e | e | e | e
    · exact ih
    · exact ih
    · cases e <;> exact ih
    · exact congrArg (e :: ·) ih

theorem ChanLinearizes.of_quiet {cap : Nat} {tr' : Trace V W} {L : CMarked V W} (he : quiet tr' = quiet tr)
    (h : ChanLinearizes cap tr' L) : ChanLinearizes cap tr L := by
  have ha : apiOf tr' = apiOf tr := by rw [← apiOf_quiet tr', he, apiOf_quiet]
  exact { h with
    history := by rw [← ha]; exact h.history
    sendDone := by rw [← ha]; exact h.sendDone
    sentValue := fun k v hm => by
      obtain ⟨a, i, h1, h2⟩ := h.sentValue k v hm
      exact ⟨a, i, (mem_of_quiet he rfl).1 h1, (mem_of_quiet he rfl).1 h2⟩
    recvValue := fun a v hm => by
      obtain ⟨i, h1⟩ := h.recvValue a v hm
      exact ⟨i, (mem_of_quiet he rfl).1 h1⟩ }

/-- **C59**, with the two-step dequeue of the wait queue. -/
theorem C59_linearizable_fine (h : FRun c tr f) : ∃ L, ChanLinearizes c.cap tr L :=
  fine_transfer (P := fun tr => ∃ L, ChanLinearizes c.cap tr L) (fun _ _ he ⟨L, hL⟩ => ⟨L, hL.of_quiet he⟩)
    (fun _ _ h => h.linearizes) h

/-- **C59**. So the order of the points agrees with real time: if a send call returned before another one began, then
its point is not after that of the other. -/
theorem C59_real_time {cap : Nat} {L : CMarked V W} (hL : ChanLinearizes cap tr L) {p q : Trace V W} {k j : Nat} {r : SendRes}
    (htr : tr = p ++ .api (.retSend k r) :: q) (hj : ∀ z wait, .api (.callSend j z wait) ∉ p) {L₁ L₂ L₃ : CMarked V W}
    {l₁ l₂ : CLabel V} (h₁ : l₁.sender = some k) (h₂ : l₂.sender = some j) :
    L ≠ L₁ ++ .inr l₂ :: (L₂ ++ .inr l₁ :: L₃) := by
  intro he
  have d1 := (hL.sendDuring (L₁ ++ .inr l₂ :: L₂) l₁ L₃ k (by rw [he]; simp) h₁).2.1 r
  obtain ⟨z, wait, d2⟩ := (hL.sendDuring L₁ l₂ (L₂ ++ .inr l₁ :: L₃) j he h₂).1
  have hev : CMarked.events (L₁ ++ .inr l₂ :: L₂) ++ CMarked.events (.inr l₁ :: L₃) = apiOf p ++ .retSend k r :: apiOf q := by
    rw [← CMarked.events_append, show apiOf p ++ .retSend k r :: apiOf q = apiOf tr by rw [htr, apiOf_append]; rfl, ← hL.history, he]
    simp
  rcases List.append_eq_append_iff.1 hev with ⟨l, h3, h4⟩ | ⟨l, h3, h4⟩
  · refine hj z wait (mem_apiOf.1 ?_)
    rw [h3, CMarked.events_append]
    exact List.mem_append_left _ (List.mem_append_left _ d2)
  · cases l with
    | nil =>
      refine hj z wait (mem_apiOf.1 ?_)
      simp at h3
      rw [← h3]
      exact List.mem_append_left _ d2
    | cons y l =>
      injection h4 with h4 h5
      subst h4
      exact d1 (by rw [h3]; simp)

/-- A run with two messages sent and received, a send call that found the channel full, waited and was cancelled, and a
poll that returned `Pending`. -/
example : (∃ L, ChanLinearizes 1 cancelTr L) ∧ .api (.retSend 1 (.ok 100)) ∈ cancelTr ∧ .api (.cancel 2) ∈ cancelTr ∧
    .api (.retPoll (.some 102)) ∈ cancelTr ∧ .api (.retPoll .pending) ∈ cancelTr ∧ .api (.retTry (.ok 106)) ∈ cancelTr := by
  obtain ⟨s, h⟩ := cancel_run
  exact ⟨h.linearizes, by decide +kernel⟩

/-- One in which a `send_timeout` times out. -/
example : (∃ L, ChanLinearizes 1 (scriptTr (demoC 1 true) timeoutDemo) L) ∧
    .api (.retSend 2 .timeout) ∈ scriptTr (demoC 1 true) timeoutDemo ∧ .api (.retTry (.ok 106)) ∈ scriptTr (demoC 1 true) timeoutDemo := by
  obtain ⟨s, h⟩ : ∃ s : State 8 Nat Nat, Run (demoC 1 true) (scriptTr (demoC 1 true) timeoutDemo) s :=
    Run.of_scriptTr (by decide) (by decide +kernel) (by decide +kernel)
  exact ⟨h.linearizes, by decide +kernel⟩

/-- And one in which the `Receiver` is dropped, and a waiting and a later send call return `Closed`. -/
example : (∃ L, ChanLinearizes 1 (scriptTr (demoC 1 false) closeDemo) L) ∧
    .api (.retSend 2 .closed) ∈ scriptTr (demoC 1 false) closeDemo ∧ .api .rxDropped ∈ scriptTr (demoC 1 false) closeDemo := by
  obtain ⟨s, h⟩ : ∃ s : State 8 Nat Nat, Run (demoC 1 false) (scriptTr (demoC 1 false) closeDemo) s :=
    Run.of_scriptTr (by decide) (by decide +kernel) (by decide +kernel)
  exact ⟨h.linearizes, by decide +kernel⟩

theorem _root_.Thingbuf.Chan.CAbs.Steps.open {cap : Nat} {q q' : CAbs V} {ls : List (CLabel V)} (h : CAbs.Steps cap q ls q') :
    q.closed = false → .close ∉ ls → .closed ∉ ls := by
  induction h with
  | nil => intros; simp
  | @cons q q₁ q₂ l ls hs h ih =>
    intro hq hn hc
    have h1 : q₁.closed = false := by
      cases hs <;> first | exact hq | rfl | exact absurd List.mem_cons_self hn
    rcases List.mem_cons.1 hc with hx | hx
    · subst hx
      cases hs
      cases hq
    · exact ih h1 (fun hx => hn (List.mem_cons_of_mem _ hx)) hx

/-- Not every history is linearizable: no handle of the channel was dropped, but `try_recv_ref` returns `Closed`. -/
example : ¬ ∃ L, ChanLinearizes 2 ([.api .callTry, .api (.retTry .closed)] : Trace Nat Nat) L := by
  rintro ⟨L, hL⟩
  have hm : .inl (.retTry .closed) ∈ L := by
    have : Api.retTry .closed ∈ CMarked.events L := by rw [hL.history]; exact List.mem_cons_of_mem _ List.mem_cons_self
    simp only [CMarked.events, List.mem_filterMap] at this
    obtain ⟨x, hx, hy⟩ := this
    cases x with
    | inl e => cases hy; exact hx
    | inr l => cases hy
  obtain ⟨L₁, L₂, he⟩ := List.append_of_mem hm
  obtain ⟨A, l, B, h1, h2, -⟩ := hL.recvDone L₁ _ L₂ he (.inr ⟨_, rfl⟩)
  have hl : l = .closed := by
    cases l with
    | closed => rfl
    | recv a v => rcases h2 with h2 | h2 <;> cases h2
    | empty => rcases h2 with h2 | h2 <;> cases h2
    | gaveUp => cases h2
    | send k => exact h2.elim
    | full k => exact h2.elim
    | sendClosed k => exact h2.elim
    | sent k v => exact h2.elim
    | close => exact h2.elim
  subst hl
  have mem : ∀ {l : CLabel Nat}, l ∈ CMarked.labels L ↔ .inr l ∈ L := by
    intro l
    simp only [CMarked.labels, List.mem_filterMap]
    constructor
    · rintro ⟨x, hx, hy⟩
      cases x with
      | inl e => cases hy
      | inr l' => cases hy; exact hx
    · exact fun hx => ⟨_, hx, rfl⟩
  obtain ⟨q, hq⟩ := hL.legal
  refine hq.open rfl (fun hc => ?_) (mem.2 (by rw [he, h1]; simp))
  obtain ⟨L₃, L₄, h3⟩ := List.append_of_mem (mem.1 hc)
  have sub : ∀ e, e ∈ CMarked.events L₃ → e = .callTry ∨ e = .retTry .closed := by
    intro e hx
    have : e ∈ CMarked.events L := by rw [h3, CMarked.events_append]; exact List.mem_append_left _ hx
    rw [hL.history] at this
    simpa [apiOf] using this
  rcases hL.closeDuring L₃ L₄ h3 with ⟨h4, -⟩ | ⟨h4, -⟩
  · rcases sub _ h4 with h5 | h5 <;> cases h5
  · obtain ⟨pre, h, post, h5, -⟩ := h4
    have : Ev.api (Api.dropTx h false) ∈ CMarked.trace (V := Nat) L₃ := by rw [h5]; simp
    simp only [CMarked.trace, List.mem_map] at this
    obtain ⟨e, h6, h7⟩ := this
    cases h7
    rcases sub _ h6 with h7 | h7 <;> cases h7

end Thingbuf.Chan
