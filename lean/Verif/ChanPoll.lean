import Verif.ChanAfter
import Verif.CellLate

/-!
# The polls of the receiver: history
-/

namespace Thingbuf.Chan

variable {w : Nat} {V W : Type} {c : Config W} {tr : Trace V W} {s : State w V W}

/-- `post` is what happened since the last poll, whose waker was `v`. -/
def Since (tr : Trace V W) (v : W) (post : Trace V W) : Prop :=
  (∃ pre, tr = pre ++ .api (.callPoll v) :: post) ∧ ∀ u, .api (.callPoll u) ∉ post

/-- The last poll, with waker `v`, registered its waker; `m2` is what happened since. -/
def Reg (tr : Trace V W) (v : W) (m2 : Trace V W) : Prop :=
  ∃ m1 o, Since tr v (m1 ++ .cell (.retWait o .wait) :: m2) ∧ .cell (.callWait o) ∈ m1 ∧ (∀ u, .cell (.mk o u) ∈ tr → u = v) ∧
    (∀ o', .cell (.retWait o' .wait) ∉ m2) ∧ .api (.retPoll .pending) ∉ m1

def PollHist (tr : Trace V W) : RPC W → Prop
  | .toPop v | .pop _ v | .toWait v => ∃ post, Since tr v post ∧ .api (.retPoll .pending) ∉ post
  | .wait o v => ∃ post, Since tr v post ∧ .api (.retPoll .pending) ∉ post ∧ .cell (.callWait o) ∈ post ∧ ∀ u, .cell (.mk o u) ∈ tr → u = v
  | .toPop2 v => ∃ m2, Reg tr v m2 ∧ .api (.retPoll .pending) ∉ m2
  | .pop2 a v => ∃ m2, Reg tr v m2 ∧ .api (.retPoll .pending) ∉ m2 ∧ .core (.invoke a .pop) ∈ m2
  | .idle (some v) | .tryPop _ (some v) => ∃ m2 a r, Reg tr v m2 ∧ .core (.invoke a .pop) ∈ m2 ∧ .core (.ret a r) ∈ m2 ∧ r ≠ .popped ∧ r ≠ .closed
  | .idle none | .tryPop _ none | .toLast | .last _ => ∀ v post, Since tr v post → .api (.retPoll .pending) ∉ post
  | _ => True

/-- Events that do not concern the polls. -/
structure NoPoll (evs : Trace V W) : Prop where
  call : ∀ u, .api (.callPoll u) ∉ evs
  pend : .api (.retPoll .pending) ∉ evs
  wait : ∀ o, .cell (.retWait o .wait) ∉ evs
  make : ∀ o u, .cell (.mk o u) ∉ evs

theorem Since.append {v : W} {post evs : Trace V W} (h : Since tr v post) (hn : ∀ u, .api (.callPoll u) ∉ evs) : Since (tr ++ evs) v (post ++ evs) := by
  obtain ⟨⟨pre, rfl⟩, h2⟩ := h
  exact ⟨⟨pre, by simp⟩, fun u hu => (List.mem_append.1 hu).elim (h2 u) (hn u)⟩

theorem Since.back {v : W} {post evs : Trace V W} (hn : ∀ u, .api (.callPoll u) ∉ evs) (h : Since (tr ++ evs) v post) : ∃ post', post = post' ++ evs ∧ Since tr v post' := by
  obtain ⟨⟨pre, h1⟩, h2⟩ := h
  rcases append_split h1 with ⟨post', rfl, h3⟩ | ⟨e1, h3, h4⟩
  · exact ⟨post', rfl, ⟨pre, h3⟩, fun u hu => h2 u (List.mem_append_left _ hu)⟩
  · exact absurd (by rw [h3]; simp) (hn v)

theorem Since.uniq {v v' : W} {post post' : Trace V W} (h : Since tr v post) (h' : Since tr v' post') : v = v' ∧ post = post' := by
  obtain ⟨⟨pre, rfl⟩, h2⟩ := h
  obtain ⟨⟨pre', h3⟩, h4⟩ := h'
  rcases List.append_eq_append_iff.1 h3 with ⟨l, h5, h6⟩ | ⟨l, h5, h6⟩
  · cases l with
    | nil => simp at h6; exact h6
    | cons x l =>
      have h6 := (List.cons.inj h6).2
      exact absurd (by rw [h6]; simp) (h2 v')
  · cases l with
    | nil => simp at h6; exact ⟨h6.1.symm, h6.2.symm⟩
    | cons x l =>
      have h6 := (List.cons.inj h6).2
      exact absurd (by rw [h6]; simp) (h4 v)

theorem Reg.append {v : W} {m2 evs : Trace V W} (h : Reg tr v m2) (hn : NoPoll evs) : Reg (tr ++ evs) v (m2 ++ evs) := by
  obtain ⟨m1, o, h1, h2, h3, h4, h5⟩ := h
  refine ⟨m1, o, by simpa using h1.append hn.call, h2, fun u hu => ?_, fun o' ho => ?_, h5⟩
  · exact h3 u ((List.mem_append.1 hu).resolve_right (hn.make o u))
  · exact (List.mem_append.1 ho).elim (h4 o') (hn.wait o')

theorem PollHist.mono {p : RPC W} {evs : Trace V W} (h : PollHist tr p) (hn : NoPoll evs) : PollHist (tr ++ evs) p := by
  have hp : ∀ {l : Trace V W}, .api (.retPoll .pending) ∉ l → .api (.retPoll .pending) ∉ l ++ evs :=
    fun h1 h2 => (List.mem_append.1 h2).elim h1 hn.pend
  have hnone : (∀ v post, Since tr v post → .api (.retPoll .pending) ∉ post) → ∀ v post, Since (tr ++ evs) v post → .api (.retPoll .pending) ∉ post := by
    intro h1 v post h2
    obtain ⟨post', rfl, h3⟩ := h2.back hn.call
    exact hp (h1 v _ h3)
  have hsome : ∀ {v}, (∃ m2 a r, Reg tr v m2 ∧ .core (.invoke a .pop) ∈ m2 ∧ .core (.ret a r) ∈ m2 ∧ r ≠ .popped ∧ r ≠ .closed) →
      ∃ m2 a r, Reg (tr ++ evs) v m2 ∧ .core (.invoke a .pop) ∈ m2 ∧ .core (.ret a r) ∈ m2 ∧ r ≠ .popped ∧ r ≠ .closed := by
    rintro v ⟨m2, a, r, h1, h2, h3, h4⟩
    exact ⟨_, a, r, h1.append hn, by simp [h2], by simp [h3], h4⟩
  cases p
  case toPop | pop | toWait => obtain ⟨post, h1, h2⟩ := h; exact ⟨_, h1.append hn.call, hp h2⟩
  case wait o v =>
    obtain ⟨post, h1, h2, h3, h4⟩ := h
    exact ⟨_, h1.append hn.call, hp h2, by simp [h3], fun u hu => h4 u ((List.mem_append.1 hu).resolve_right (hn.make o u))⟩
  case toPop2 => obtain ⟨m2, h1, h2⟩ := h; exact ⟨_, h1.append hn, hp h2⟩
  case pop2 => obtain ⟨m2, h1, h2, h3⟩ := h; exact ⟨_, h1.append hn, hp h2, by simp [h3]⟩
  case idle o =>
    cases o
    · exact hnone h
    · exact hsome h
  case tryPop a o =>
    cases o
    · exact hnone h
    · exact hsome h
  case toLast | last => exact hnone h
  all_goals trivial

theorem PollHist.quiet {post : Trace V W} {v : W} (h : Since tr v post) (hp : .api (.retPoll .pending) ∉ post) :
    ∀ v post, Since tr v post → .api (.retPoll .pending) ∉ post := by
  intro v' post' h'
  obtain ⟨-, rfl⟩ := h.uniq h'
  exact hp

theorem Reg.since {v : W} {m2 : Trace V W} (h : Reg tr v m2) (hp : .api (.retPoll .pending) ∉ m2) :
    ∃ post, Since tr v post ∧ .api (.retPoll .pending) ∉ post := by
  obtain ⟨m1, o, h1, h2, h3, h4, h5⟩ := h
  refine ⟨_, h1, ?_⟩
  simp [h5, hp]

theorem NoPoll.core {evs : List (Event V)} {es : List (Api W)} (h : ∀ u, .callPoll u ∉ es) (h1 : .retPoll .pending ∉ es) :
    NoPoll (evs.map .core ++ es.map .api : Trace V W) := ⟨by simpa using h, by simpa using h1, by simp, by simp⟩

theorem NoPoll.queue {evs : List (Queue.Event W)} {es : List (Api W)} (h : ∀ u, .callPoll u ∉ es) (h1 : .retPoll .pending ∉ es) :
    NoPoll (evs.map .queue ++ es.map .api : Trace V W) := ⟨by simpa using h, by simpa using h1, by simp, by simp⟩

theorem waitAct_mk {s : State w V W} {o o' : OpId} {v u : W} (h : waitAct s o v = .mk o' u) : o' = o ∧ u = v := by
  unfold waitAct at h
  split at h <;> simp at h <;> exact ⟨h.1.symm, h.2.symm⟩

/-- What the events of an operation of the wait cell look like, whatever the memory holds. -/
theorem ExecM.cellOpOk {m : Bool} (h : ExecM m c tr s) (b : OpId) : Cell.OpOk b (Cell.mine (cellOf tr) b) (s.cell.pc b) := by
  refine ExecM.ind (P := fun tr s => Cell.OpOk b (Cell.mine (cellOf tr) b) (s.cell.pc b)) ?_ (fun _ _ _ _ _ ih _ => ih)
    (fun _ _ _ _ _ ih _ h2 => by simp only [h2]; exact ih) ?_ ?_ ?_ ?_ tr s h
  · rfl
  · intro tr s t e he ih hm
    rw [cellOf_append, show cellOf [Ev.api e] = ([] : Cell.Trace W) from rfl, List.append_nil]
    cases hm <;> exact ih
  · intro tr s act s1 evs r t es he ih h1 hr hm
    rw [cellOf_append, cellOf_append, cellOf_core, cellOf_api, List.append_nil, List.append_nil]
    have : t.cell = s.cell := by cases hm <;> rfl
    simp only [this]; exact ih
  · intro tr s act s1 evs t es he ih h1 hm
    rw [cellOf_append, cellOf_append, cellOf_cell, cellOf_api, List.append_nil, Cell.mine_append]
    obtain ⟨a, p, l, x, rfl, ht⟩ := Cell.step_tr h1
    by_cases hb : b = a
    · subst hb
      rw [Cell.mine_self ht.op]
      simpa [Cell.State.after] using Cell.OpOk.step ht ih
    · rw [Cell.mine_other ht.op hb, List.append_nil]
      simpa [Cell.State.after, hb] using ih
  · intro tr s act s1 evs t es he ih h1 hm
    rw [cellOf_append, cellOf_append, cellOf_queue, cellOf_api, List.append_nil, List.append_nil]
    have : t.cell = s.cell := by cases hm <;> rfl
    simp only [this]; exact ih

theorem ExecM.pollHist {m : Bool} (h : ExecM m c tr s) : PollHist tr s.rx := by
  refine ExecM.ind (P := fun tr s => PollHist tr s.rx) ?_ (fun _ _ _ _ _ ih _ => ih) (fun _ _ _ _ _ ih _ _ => ih) ?_ ?_ ?_ ?_ tr s h
  · intro v post h; obtain ⟨⟨pre, h⟩, _⟩ := h; simp at h
  · intro tr s t e he ih hm
    cases hm
    case poll p v hp => exact ⟨[], ⟨⟨tr, rfl⟩, by simp⟩, by simp⟩
    case dropRx => trivial
    all_goals exact PollHist.mono ih ⟨by simp, by simp, by simp, by simp⟩
  · intro tr s act s1 evs r t es he ih h1 hr hm
    have hev := core_evs h1
    have hinv : ∀ {a}, act = .invoke a .pop → .core (.invoke a .pop) ∈ (evs.map .core ++ es.map .api : Trace V W) := fun h => by
      simp [(hev.inv _ _).2 h]
    have hret : ∀ {r'}, r = some r' → .core (.ret (actOp act) r') ∈ (evs.map .core ++ es.map .api : Trace V W) := fun h =>
      List.mem_append_left _ (List.mem_map_of_mem (hev.ret' _ (hr.trans h)))
    cases hm
    case pop2Pending a v spur r hp h2 h3 =>
      rw [hp] at ih
      obtain ⟨m2, h4, h5, h6⟩ := ih
      have hx : .core (.ret a r) ∈ (evs.map .core ++ [Api.retPoll .pending].map .api : Trace V W) := by
        have := hret rfl
        rwa [actOp_runAct] at this
      obtain ⟨m1, o, h7, h8, h9, h10, h11⟩ := h4
      refine ⟨m2 ++ (evs.map .core ++ [Api.retPoll .pending].map .api), a, r, ⟨m1, o, ?_, h8, ?_, ?_, h11⟩, List.mem_append_left _ h6,
        List.mem_append_right _ hx, h2, h3⟩
      · have := h7.append (evs := evs.map .core ++ [Api.retPoll .pending].map .api) (by simp)
        simpa using this
      · intro u hu; simp at hu; exact h9 u hu
      · intro o' ho; simp at ho; exact h10 o' ho
    case rxClose | rxClosed | rxSkip => trivial
    case tryRecv p a hp =>
      rw [hp] at ih
      have := PollHist.mono (evs := evs.map .core ++ [Api.callTry].map .api) ih (.core (by simp) (by simp))
      cases p <;> exact this
    case tryOk a p spur hp =>
      rw [hp] at ih
      have := PollHist.mono (evs := evs.map .core ++ [Api.retTry (.ok a)].map .api) ih (.core (by simp) (by simp))
      cases p <;> exact this
    case tryClosed a p spur hp =>
      rw [hp] at ih
      have := PollHist.mono (evs := evs.map .core ++ [Api.retTry .closed].map .api) ih (.core (by simp) (by simp))
      cases p <;> exact this
    case tryEmpty a p spur r hp _ _ =>
      rw [hp] at ih
      have := PollHist.mono (evs := evs.map .core ++ [Api.retTry .empty].map .api) ih (.core (by simp) (by simp))
      cases p <;> exact this
    case toPop v o hp => rw [hp] at ih; exact PollHist.mono (p := .pop o v) ih (.core (by simp) (by simp))
    case popEmpty a v spur r hp _ _ => rw [hp] at ih; exact PollHist.mono (p := .toWait v) ih (.core (by simp) (by simp))
    case popSome a v spur hp | popNone a v spur hp =>
      rw [hp] at ih
      obtain ⟨post, h2, h3⟩ := ih
      exact PollHist.mono (p := .idle none) (PollHist.quiet h2 h3) (.core (by simp) (by simp))
    case pop2Some a v spur hp | pop2None a v spur hp =>
      rw [hp] at ih
      obtain ⟨m2, h2, h3, -⟩ := ih
      obtain ⟨post, h4, h5⟩ := h2.since h3
      exact PollHist.mono (p := .idle none) (PollHist.quiet h4 h5) (.core (by simp) (by simp))
    case toPop2 v o hp =>
      rw [hp] at ih
      obtain ⟨m2, h2, h3⟩ := ih
      exact ⟨_, h2.append (.core (by simp) (by simp)), by simp [h3], List.mem_append_right _ (hinv rfl)⟩
    case toLast o hp => rw [hp] at ih; exact PollHist.mono (p := .last o) ih (.core (by simp) (by simp))
    case lastSome a spur hp => rw [hp] at ih; exact PollHist.mono (p := .idle none) ih (.core (by simp) (by simp))
    case lastNone a spur r hp _ => rw [hp] at ih; exact PollHist.mono (p := .idle none) ih (.core (by simp) (by simp))
    all_goals exact PollHist.mono ih (.core (by simp) (by simp))
  · intro tr s act s1 evs t es he ih h1 hm
    have hev := cell_evs h1 hm.not_panic
    have hno : ∀ {es : List (Api W)}, (∀ u, .callPoll u ∉ es) → .retPoll .pending ∉ es → (∀ o, .retWait o .wait ∉ evs) → (∀ o u, .mk o u ∉ evs) →
        NoPoll (evs.map .cell ++ es.map .api : Trace V W) := fun h2 h3 h4 h5 =>
      ⟨by simpa using h2, by simpa using h3, by simpa using h4, by simpa using h5⟩
    have hk : ∀ {o}, act = .run o → cellKind (s.cell.pc o) = some .notify → (∀ o, .retWait o .wait ∉ evs) ∧ ∀ o u, .mk o u ∉ evs := by
      rintro o rfl hk
      refine ⟨fun o' ho => ?_, fun o' u hu => ?_⟩
      · have := (hev.ret _ _ ho).2.2
        rw [show cellOp (Cell.Act.run o : Cell.Act W) = o from rfl, hk] at this
        cases this
      · exact absurd (hev.make _ _ hu) (by simp)
    have hcall : ∀ {o b}, act = .callNotify o b → (∀ o, .retWait o .wait ∉ evs) ∧ ∀ o u, .mk o u ∉ evs := by
      rintro o b rfl
      simp only [Cell.step] at h1
      split at h1 <;> cases h1
      simp
    have hret : ∀ {o r v}, act = waitAct s o v → waitRet evs = some r → r ≠ .wait → ∀ o, .retWait o .wait ∉ evs := by
      intro o r v _ hr hne o' ho
      have := (hev.ret _ _ ho).2.1
      rw [hr] at this
      exact hne (Option.some.inj this)
    have hmk : ∀ {o v}, act = waitAct s o v → ∀ o' u, .mk o' u ∈ evs → o' = o ∧ u = v := by
      intro o v ha o' u hu
      exact waitAct_mk (ha ▸ hev.make _ _ hu)
    have ho := he.cellOwns
    cases hm
    case wait v o hp =>
      rw [hp] at ih
      obtain ⟨post, h2, h3⟩ := ih
      have := (hev.wait o).2 rfl
      refine ⟨_, h2.append (by simp), by simp [h3], by simp [this], ?_⟩
      intro u hu
      simp at hu
      rcases hu with hu | hu
      · exfalso
        have hidle : s.cell.pc o = .idle := by
          simp only [Cell.step] at h1
          split at h1 <;> cases h1
          assumption
        have hop := he.cellOpOk o
        rw [hidle] at hop
        have : Cell.Event.mk o u ∈ Cell.mine (cellOf tr) o := Cell.mem_mine.2 ⟨mem_cellOf.2 hu, rfl⟩
        rw [show Cell.mine (cellOf tr) o = [] from hop] at this
        cases this
      · exact absurd (hev.make _ _ hu) (by simp)
    case waitStay o v hp h2 =>
      rw [hp] at ih
      obtain ⟨post, h3, h4, h5, h6⟩ := ih
      simp only [hp]
      refine ⟨_, h3.append (by simp), by simp [h4], by simp [h5], fun u hu => ?_⟩
      simp at hu
      rcases hu with hu | hu
      · exact h6 u hu
      · exact (hmk rfl _ _ hu).2
    case waitWait o v hp h2 =>
      rw [hp] at ih
      obtain ⟨post, h3, h4, h5, h6⟩ := ih
      obtain ⟨o', h7⟩ : ∃ o', .retWait o' .wait ∈ evs := by
        unfold waitRet at h2
        obtain ⟨e, he, h1⟩ := List.exists_of_findSome?_eq_some h2
        cases e <;> simp at h1
        subst h1
        exact ⟨_, he⟩
      obtain ⟨l, h8, h9⟩ := hev.one _ _ h7
      have h10 := (hev.ret _ _ h7).1
      simp at h10
      subst h10
      refine ⟨[], ⟨post ++ l.map .cell, o', ?_, by simp [h5], ?_, by simp, by simp [h4]⟩, by simp⟩
      · have := h3.append (evs := evs.map .cell) (by simp)
        rw [h8] at this ⊢
        simpa using this
      · intro u hu
        simp at hu
        rcases hu with hu | hu
        · exact h6 u hu
        · exact (hmk rfl _ _ hu).2
    case waitNotified o v hp h2 =>
      rw [hp] at ih
      obtain ⟨post, h3, h4, h5, h6⟩ := ih
      exact ⟨_, h3.append (by simp), by simp [h4]⟩
    case waitPanic o v hp h2 =>
      rw [hp] at ih
      obtain ⟨post, h3, h4, h5, h6⟩ := ih
      exact PollHist.quiet (h3.append (evs := _) (by simp)) (by simp [h4])
    case waitClosed o v hp h2 =>
      rw [hp] at ih
      obtain ⟨post, h3, h4, h5, h6⟩ := ih
      exact PollHist.quiet (h3.append (evs := _) (by simp)) (by simp [h4])
    case cCall | notify =>
      exact PollHist.mono ih (hno (by simp) (by simp) (hcall rfl).1 (hcall rfl).2)
    case cStay o hp _ | cEnd o hp _ =>
      have := hk rfl (ho.sat .closer o .notify (by simp [cellClaim, claimOf, hp, closerCell]))
      exact PollHist.mono ih (hno (by simp) (by simp) this.1 this.2)
    case notifyStay k o hp _ | notifyEnd k o hp _ =>
      have := hk rfl (ho.sat (.snd k) o .notify (by simp [cellClaim, claimOf, hp, sndCell]))
      exact PollHist.mono ih (hno (by simp) (by simp) this.1 this.2)
  · intro tr s act s1 evs t es he ih h1 hm
    cases hm
    case close => trivial
    case closeEnd => trivial
    all_goals exact PollHist.mono ih (.queue (by simp) (by simp))

end Thingbuf.Chan
