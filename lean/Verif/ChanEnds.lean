import Verif.ChanClose
import Verif.Solo

/-!
# How the drops end

How many more steps the drop of a `SendRef`, and that of the last `Sender`, can take.
-/

namespace Thingbuf.Chan

variable {w : Nat} {V W : Type} {c : Config W} {tr : Trace V W} {s : State w V W}

/-- The steps that a `notify` of the wait cell can still take. -/
def cellRank : Cell.PC W → Nat
  | .notifyStart _ => 5
  | .notifyTake => 4
  | .notifyTaking => 3
  | .notifyClear _ => 2
  | .notifyWake _ => 1
  | _ => 0

theorem cell_run_rank {cf : Cell.Config} {s s1 : Cell.State W} {o : OpId} {evs : List (Cell.Event W)}
    (h : Cell.step cf s (.run o) = some (s1, evs)) (hk : cellKind (s.pc o) = some .notify) (hn : notifyOver evs = false) :
    cellRank (s1.pc o) < cellRank (s.pc o) := by
  simp only [Cell.step, Cell.runStep] at h
  cases hp : s.pc o <;> rw [hp] at hk h <;> simp [cellKind] at hk
  case notifyStart x =>
    simp only [Cell.notifyStart, Option.some.injEq] at h
    split at h <;> cases h
    · simp [cellRank, Cell.State.goto]
    · simp [notifyOver] at hn
  case notifyWake x =>
    cases x <;> cases h <;> simp [notifyOver] at hn
  all_goals (cases h; simp [cellRank, Cell.State.goto])

theorem cell_run_some (cf : Cell.Config) {s : Cell.State W} {o : OpId} (hk : cellKind (s.pc o) = some .notify) :
    ∃ s1 evs, Cell.step cf s (.run o) = some (s1, evs) := by
  simp only [Cell.step, Cell.runStep]
  cases hp : s.pc o <;> rw [hp] at hk <;> simp [cellKind] at hk <;> try exact ⟨_, _, rfl⟩
  rename_i t; cases t <;> exact ⟨_, _, rfl⟩

/-- There is always a number that no operation has. -/
theorem exists_not_called (l : List Nat) : ∃ o, o ∉ l := by
  refine ⟨l.foldr (fun a b => max a b) 0 + 1, fun h => ?_⟩
  have : ∀ (l : List Nat) a, a ∈ l → a ≤ l.foldr (fun a b => max a b) 0 := by
    intro l
    induction l with
    | nil => simp
    | cons x l ih =>
      intro a ha
      simp only [List.foldr_cons]
      rcases List.mem_cons.1 ha with rfl | ha
      · omega
      · have := ih a ha; omega
  have := this l _ h
  omega

theorem ExecM.cell_idle (h : Exec c tr s) : ∃ o, s.cell.pc o = .idle := by
  obtain ⟨o, ho⟩ := exists_not_called ((cellOf tr).filterMap fun | .callWait a => some a | .callNotify a _ => some a | _ => none)
  refine ⟨o, (h.cell.idle_iff o).2 ?_⟩
  intro hc
  apply ho
  rw [List.mem_filterMap]
  rcases hc with hc | ⟨x, hc⟩
  · exact ⟨_, hc, rfl⟩
  · exact ⟨_, hc, rfl⟩

theorem Run.core_idle (h : Run c tr s) : ∃ o, s.core.pc o = .idle := by
  obtain ⟨o, ho⟩ := exists_not_called ((coreOf tr).filterMap fun | .invoke a _ => some a | _ => none)
  refine ⟨o, h.core.idle ?_⟩
  rintro ⟨op, hc⟩
  exact ho (List.mem_filterMap.2 ⟨_, hc, rfl⟩)

/-! ### `SendRef` -/

def sendRank (s : State w V W) (k : Nat) : Nat :=
  match s.snd k with
  | .toNotify => 6
  | .notifying o => cellRank (s.cell.pc o)
  | _ => 0

/-- The drop of the `SendRef` of call `k` goes on. -/
def Notifying (s : State w V W) (k : Nat) : Prop := s.snd k = .toNotify ∨ ∃ o, s.snd k = .notifying o

theorem SendEnding.notifying {k : Nat} (h : Exec c tr s) (hk : SendEnding tr k) : Notifying s k := by
  have hl := h.life k
  have h1 : .dropSend k ∈ life k (apiOf tr) := (mem_life rfl).2 hk.1
  have h2 : .dropSendEnd k ∉ life k (apiOf tr) := fun hm => hk.2 ((mem_life rfl).1 hm)
  unfold Notifying
  cases hp : s.snd k <;> rw [hp] at hl <;> simp only [LifeOk] at hl
  case toNotify => exact .inl rfl
  case notifying o => exact .inr ⟨o, rfl⟩
  case off => rw [hl] at h1; cases h1
  case done =>
    obtain ⟨_, _, ⟨r, hr, hl⟩ | hl | ⟨a, hl⟩⟩ := hl <;> rw [hl] at h1 h2 <;> simp at h1 h2
  all_goals (obtain ⟨_, _, hl⟩ := hl; rw [hl] at h1; simp at h1)

theorem ApiMove.notifying {t : State w V W} {e : Api W} {k : Nat} (hm : ApiMove c s t e) (hk : Notifying s k) : t.snd k = s.snd k := by
  cases hm with
  | forgetSend j a hp =>
    refine upd_ne _ _ ?_
    rintro rfl
    rcases hk with hk | ⟨o, hk⟩ <;> rw [hk] at hp <;> cases hp
  | _ => rfl

theorem CoreMove.notifying {t : State w V W} {act} {r} {es : List (Api W)} {k : Nat} (hm : CoreMove c s act r t es) (hk : Notifying s k) :
    t.snd k = s.snd k := by
  cases hm <;> first
    | rfl
    | (refine upd_ne _ _ ?_
       rintro rfl
       rename_i hp
       rcases hk with hk | ⟨o, hk⟩ <;> rw [hk] at hp <;> cases hp; done)
    | (refine upd_ne _ _ ?_
       rintro rfl
       rename_i hp _
       rcases hk with hk | ⟨o, hk⟩ <;> rw [hk] at hp <;> cases hp; done)
    | (refine upd_ne _ _ ?_
       rintro rfl
       rename_i hp _ _ _
       rcases hk with hk | ⟨o, hk⟩ <;> rw [hk] at hp <;> cases hp; done)

theorem QueueMove.notifying {t : State w V W} {act} {r} {es : List (Api W)} {k : Nat} (hm : QueueMove c s act r t es) (hk : Notifying s k) :
    t.snd k = s.snd k := by
  cases hm <;> first
    | rfl
    | (refine upd_ne _ _ ?_
       rintro rfl
       rename_i hp
       rcases hk with hk | ⟨o, hk⟩ <;> rw [hk] at hp <;> simp at hp; done)
    | (refine upd_ne _ _ ?_
       rintro rfl
       rename_i hp _
       rcases hk with hk | ⟨o, hk⟩ <;> rw [hk] at hp <;> simp at hp; done)
    | (refine upd_ne _ _ ?_
       rintro rfl
       rename_i hp _ _
       rcases hk with hk | ⟨o, hk⟩ <;> rw [hk] at hp <;> simp at hp; done)

/-- Other operations of the wait cell do not touch the one that an agent is in. -/
theorem CellOwns.other (h : CellOwns s) {s1 : Cell.State W} {act : Cell.Act W} {evs : List (Cell.Event W)} {x y : Agent} {o : OpId} {l : LK}
    (hs : Cell.step c.cell s.cell act = some (s1, evs)) (hx : cellClaim s x = some (o, l))
    (hy : ∀ l', l' = cellKind (s.cell.pc (cellOp act)) → l' = none ∨ ∃ l0, cellClaim s y = some (cellOp act, l0)) (hxy : x ≠ y) : s1.pc o = s.cell.pc o := by
  refine (cell_next hs).1 o ?_
  rintro rfl
  rcases hy _ rfl with hy | ⟨l0, hy⟩
  · rw [h.sat _ _ _ hx] at hy; cases hy
  · exact hxy (h.inj _ _ _ _ _ hx hy)

theorem Tr.sendRank {s' : State w V W} {evs : Trace V W} {k : Nat} (ht : Tr c s s' evs) (ho : CellOwns s) (hk : Notifying s k) :
    .api (.dropSendEnd k) ∈ evs ∨ (Notifying s' k ∧ sendRank s' k ≤ sendRank s k) := by
  have same : ∀ {t : State w V W}, t.snd k = s.snd k → t.cell = s.cell → Notifying t k ∧ Chan.sendRank t k ≤ Chan.sendRank s k :=
    fun h1 h2 => ⟨by unfold Notifying; rw [h1]; exact hk, by unfold Chan.sendRank; rw [h1, h2]; exact Nat.le_refl _⟩
  cases ht with
  | api hm => exact .inr (same (hm.notifying hk) hm.frame.2.1)
  | core h1 hm => exact .inr (same (hm.notifying hk) hm.frame.1)
  | queue h1 hm => exact .inr (same (hm.notifying hk) hm.frame.2)
  | @cell act s1 evs t es h1 hm =>
    have hn := (cell_next h1).2
    have keep : ∀ {t : State w V W}, t.snd k = s.snd k → (∀ o, s.snd k = .notifying o → s1.pc o = s.cell.pc o) →
        Notifying { t with cell := s1 } k ∧ Chan.sendRank { t with cell := s1 } k ≤ Chan.sendRank s k := by
      intro t e1 e2
      refine ⟨by unfold Notifying; simp only [e1]; exact hk, ?_⟩
      unfold Chan.sendRank
      simp only [e1]
      cases hp : s.snd k <;> simp
      rw [e2 _ hp]; exact Nat.le_refl _
    have claim : ∀ o, s.snd k = .notifying o → cellClaim s (.snd k) = some (o, .notify) := fun o h => by
      simp [cellClaim, claimOf, h, sndCell]
    cases hm with
    | cCall o evs hp =>
      exact .inr (keep rfl fun o' h' => ho.other (y := .closer) h1 (claim _ h') (fun l hl => .inl (hl.trans hn.1)) (by simp))
    | cStay o evs hp hr =>
      exact .inr (keep rfl fun o' h' => ho.other (y := .closer) h1 (claim _ h') (fun l hl => .inr ⟨.notify, by simp [cellClaim, claimOf, hp, closerCell, cellOp]⟩) (by simp))
    | cEnd o evs hp hr =>
      exact .inr (keep rfl fun o' h' => ho.other (y := .closer) h1 (claim _ h') (fun l hl => .inr ⟨.notify, by simp [cellClaim, claimOf, hp, closerCell, cellOp]⟩) (by simp))
    | notify j o evs hp =>
      by_cases hj : k = j
      · subst hj
        refine .inr ⟨.inr ⟨o, upd_self ..⟩, ?_⟩
        simp only [Cell.step] at h1
        split at h1 <;> cases h1
        simp [Chan.sendRank, hp, State.sgoto, Cell.State.goto, cellRank]
      · exact .inr (keep (upd_ne _ _ hj) fun o' h' => ho.other (y := .closer) h1 (claim _ h') (fun l hl => .inl (hl.trans hn.1)) (by simp))
    | notifyStay j o evs hp hr =>
      by_cases hj : k = j
      · subst hj
        refine .inr ⟨hk, ?_⟩
        simp only [Chan.sendRank, hp]
        exact Nat.le_of_lt (cell_run_rank h1 (ho.sat _ _ _ (claim _ hp)) hr)
      · exact .inr (keep rfl fun o' h' => ho.other (y := .snd j) h1 (claim _ h') (fun l hl => .inr ⟨.notify, by simp [cellClaim, claimOf, hp, sndCell, cellOp]⟩) (by simpa using hj))
    | notifyEnd j o evs hp hr =>
      by_cases hj : k = j
      · subst hj; exact .inl (by simp)
      · exact .inr (keep (upd_ne _ _ hj) fun o' h' => ho.other (y := .snd j) h1 (claim _ h') (fun l hl => .inr ⟨.notify, by simp [cellClaim, claimOf, hp, sndCell, cellOp]⟩) (by simpa using hj))
    | wait v o evs hp =>
      exact .inr (keep rfl fun o' h' => ho.other (y := .rx) h1 (claim _ h') (fun l hl => .inl (hl.trans hn.1)) (by simp))
    | _ =>
      rename_i o v hp hr
      exact .inr (keep rfl fun o' h' => ho.other (y := .rx) h1 (claim _ h') (fun l hl => .inr ⟨.wait, by simp [cellClaim, claimOf, hp, rxCell]⟩) (by simp))

theorem step_sendRank {s' : State w V W} {act : Act V W} {evs : Trace V W} {k : Nat} (hs : step c s act = some (s', evs)) (ho : CellOwns s)
    (hk : Notifying s k) (ha : sendEndAct k act = true) : .api (.dropSendEnd k) ∈ evs ∨ (Notifying s' k ∧ sendRank s' k < sendRank s k) := by
  cases act <;> simp [sendEndAct] at ha
  case sendNotify j o =>
    subst ha
    simp only [step] at hs
    split at hs <;> try (cases hs; done)
    rename_i hp
    obtain ⟨s1, es, h1, h2, h3⟩ := onCell_eq hs
    simp only at h2
    subst h2
    refine .inr ⟨.inr ⟨o, upd_self ..⟩, ?_⟩
    simp only [Cell.step] at h1
    split at h1 <;> cases h1
    simp [sendRank, hp, State.sgoto, Cell.State.goto, cellRank]
  case sendNotifyRun j =>
    subst ha
    simp only [step] at hs
    split at hs <;> try (cases hs; done)
    rename_i o hp
    obtain ⟨s1, es, h1, h2, h3⟩ := onCell_eq hs
    simp only [afterSendNotify] at h2 h3
    by_cases hr : notifyOver es = true
    · simp [hr] at h3
      exact .inl (by rw [h3]; simp)
    · simp [hr] at h2
      subst h2
      refine .inr ⟨hk, ?_⟩
      simp only [sendRank, hp]
      exact cell_run_rank h1 (ho.sat (.snd j) o .notify (by simp [cellClaim, claimOf, hp, sndCell])) (by simpa using hr)

theorem sendRank_le (s : State w V W) (k : Nat) : sendRank s k ≤ 6 := by
  unfold sendRank
  split <;> try omega
  unfold cellRank
  split <;> omega

theorem sendRank_pos (ho : CellOwns s) {k : Nat} (hk : Notifying s k) : 0 < sendRank s k := by
  rcases hk with hk | ⟨o, hk⟩
  · simp [sendRank, hk]
  · have := ho.sat (.snd k) o .notify (by simp [cellClaim, claimOf, hk, sndCell])
    simp only [sendRank, hk]
    revert this
    cases s.cell.pc o <;> simp [cellKind, cellRank]

/-- Something that takes at most `rank` more steps of its own, whatever happens in between, ends. -/
theorem ExecM.ends {live : State w V W → Prop} {rank : State w V W → Nat} {own : Act V W → Bool} {e : Ev V W}
    (hpos : ∀ tr s, Exec c tr s → live s → 0 < rank s)
    (hown : ∀ tr s act s' evs, Exec c tr s → live s → Chan.step c s act = some (s', evs) → own act = true → e ∈ evs ∨ (live s' ∧ rank s' < rank s))
    (hoth : ∀ tr s act s' evs, Exec c tr s → live s → Chan.step c s act = some (s', evs) → e ∈ evs ∨ (live s' ∧ rank s' ≤ rank s))
    (h : Exec c tr s) (hl : live s) {acts : List (Act V W)} {s' : State w V W} {evs : Trace V W}
    (hr : runActs c s acts = some (s', evs)) (hn : rank s ≤ acts.countP own) : e ∈ evs := by
  induction acts generalizing tr s evs with
  | nil =>
    have := hpos _ _ h hl
    simp at hn
    omega
  | cons a l ih =>
    simp only [runActs] at hr
    cases h1 : Chan.step c s a with
    | none => rw [h1] at hr; cases hr
    | some o =>
      obtain ⟨s1, e1⟩ := o
      rw [h1] at hr
      cases h2 : runActs c s1 l with
      | none => simp [h2] at hr
      | some o2 =>
        obtain ⟨s2, e2⟩ := o2
        simp [h2] at hr
        obtain ⟨rfl, rfl⟩ := hr
        rw [List.mem_append]
        by_cases ha : own a = true
        · rcases hown _ _ _ _ _ h hl h1 ha with h3 | ⟨h3, h4⟩
          · exact .inl h3
          · rw [List.countP_cons_of_pos ha] at hn
            exact .inr (ih (h.step h1) h3 h2 (by omega))
        · rcases hoth _ _ _ _ _ h hl h1 with h3 | ⟨h3, h4⟩
          · exact .inl h3
          · rw [List.countP_cons_of_neg ha] at hn
            exact .inr (ih (h.step h1) h3 h2 (Nat.le_trans h4 hn))

theorem ExecM.sendEnds (h : Exec c tr s) {k : Nat} (hk : Notifying s k) {acts : List (Act V W)} {s' : State w V W} {evs : Trace V W}
    (hr : runActs c s acts = some (s', evs)) (hn : 6 ≤ acts.countP (sendEndAct k)) : .api (.dropSendEnd k) ∈ evs :=
  ExecM.ends (live := (Notifying · k)) (rank := (sendRank · k)) (own := sendEndAct k)
    (fun _ _ h hl => sendRank_pos h.cellOwns hl) (fun _ _ _ _ _ h hl h1 ha => step_sendRank h1 h.cellOwns hl ha)
    (fun _ _ _ _ _ h hl h1 => (step_tr h1).sendRank h.cellOwns hl) h hk hr (Nat.le_trans (sendRank_le s k) hn)

theorem ExecM.sendEnd_can (h : Exec c tr s) {k : Nat} (hk : Notifying s k) : ∃ (act : Act V W) (s' : State w V W) (evs : Trace V W), sendEndAct k act = true ∧
    Chan.step c s act = some (s', evs) := by
  rcases hk with hk | ⟨o, hk⟩
  · obtain ⟨o, ho⟩ := h.cell_idle
    refine ⟨.sendNotify k o, ?_⟩
    simp [sendEndAct, Chan.step, hk, onCell, Cell.step, ho]
  · have := h.cellOwns.sat (.snd k) o .notify (by simp [cellClaim, claimOf, hk, sndCell])
    obtain ⟨s1, evs, h1⟩ := cell_run_some c.cell this
    refine ⟨.sendNotifyRun k, ?_⟩
    simp [sendEndAct, Chan.step, hk, onCell, h1]

/-! ### The last `Sender` -/

def lastRank (s : State w V W) : Nat :=
  match s.closer with
  | .toClose _ => 8
  | .closing _ => 7
  | .toCloseTx => 6
  | .closeTx o => cellRank (s.cell.pc o)
  | _ => 0

/-- The drop of the last `Sender` goes on. -/
def Closing (s : State w V W) : Prop := s.closer ≠ .none ∧ s.closer ≠ .done

theorem ExecM.closer_done (h : Exec c tr s) : s.closer = .done → .api .lastTxDropped ∈ tr := by
  refine Exec.ind (P := fun tr s => s.closer = .done → .api .lastTxDropped ∈ tr) ?_ ?_ ?_ ?_ ?_ tr s h
  · intro h; cases h
  · intro tr s t e he ih hm hd
    cases hm <;> first
      | exact List.mem_append_left _ (ih hd)
      | cases hd
  · intro tr s act s1 evs r t es he ih h1 hr hm hd
    cases hm <;> first
      | exact List.mem_append_left _ (ih hd)
      | (simp; done)
      | cases hd
  · intro tr s act s1 evs t es he ih h1 hm hd
    cases hm <;> first
      | exact List.mem_append_left _ (ih hd)
      | (simp; done)
      | cases hd
  · intro tr s act s1 evs t es he ih h1 hm hd
    cases hm <;> exact List.mem_append_left _ (ih hd)

theorem LastTxEnding.closing (h : Exec c tr s) (hl : LastTxEnding tr) : Closing s :=
  ⟨fun hn => (h.hinv.closer.1 hn) (h.senders ▸ hl.1), fun hd => hl.2 (h.closer_done hd)⟩

theorem lastRank_pos (ho : CellOwns s) (hk : Closing s) : 0 < lastRank s := by
  unfold lastRank
  cases hp : s.closer <;> simp
  case none => exact hk.1 hp
  case done => exact hk.2 hp
  case closeTx o =>
    have := ho.sat .closer o .notify (by simp [cellClaim, claimOf, hp, closerCell])
    revert this
    cases s.cell.pc o <;> simp [cellKind, cellRank]

theorem lastRank_le (s : State w V W) : lastRank s ≤ 8 := by
  unfold lastRank
  split <;> try omega
  unfold cellRank
  split <;> omega

theorem Tr.lastRank {s' : State w V W} {evs : Trace V W} (ht : Tr c s s' evs) (hc : CoreOwns s) (ho : CellOwns s) (hh : HInv s) (hk : Closing s) :
    .api .lastTxDropped ∈ evs ∨ (Closing s' ∧ lastRank s' ≤ lastRank s) := by
  have same : ∀ {t : State w V W}, t.closer = s.closer → t.cell = s.cell → Closing t ∧ Chan.lastRank t ≤ Chan.lastRank s :=
    fun h1 h2 => ⟨by unfold Closing; rw [h1]; exact hk, by unfold Chan.lastRank; rw [h1, h2]; exact Nat.le_refl _⟩
  cases ht with
  | api hm =>
    refine .inr (same ?_ hm.frame.2.1)
    have he : s.handles = [] := Classical.byContradiction fun hn => hk.1 (hh.closer.2 hn)
    cases hm with
    | dropLast h h' h1 => rw [he] at h1; cases h1
    | _ => rfl
  | @core act s1 evs t es h1 hm =>
    generalize hret : coreRet _ = ret at hm
    cases hm with
    | cCall pan o r hp => exact .inr ⟨by simp [Closing], by simp [Chan.lastRank, hp]⟩
    | cStay a hp =>
      have hn := next_run (core_next h1).2
      have := (hn.2.2 (hc.sat .closer a .close (by simp [coreClaim, claimOf, hp, closerCore]))).2
      rw [hret] at this
      obtain ⟨b, hb⟩ := this
      cases hb
    | cNext a r hp hr => exact .inr ⟨by simp [Closing], by simp [Chan.lastRank, hp]⟩
    | cSkip a r hp hr hb => exact .inl (by simp)
    | _ => exact .inr (same rfl rfl)
  | queue h1 hm => exact .inr (same (by cases hm <;> rfl) hm.frame.2)
  | @cell act s1 evs t es h1 hm =>
    have hn := (cell_next h1).2
    have keep : ∀ {t : State w V W}, t.closer = s.closer → (∀ o, s.closer = .closeTx o → s1.pc o = s.cell.pc o) →
        Closing { t with cell := s1 } ∧ Chan.lastRank { t with cell := s1 } ≤ Chan.lastRank s := by
      intro t e1 e2
      refine ⟨by unfold Closing; simp only [e1]; exact hk, ?_⟩
      unfold Chan.lastRank
      simp only [e1]
      cases hp : s.closer <;> simp
      rw [e2 _ hp]; exact Nat.le_refl _
    have claim : ∀ o, s.closer = .closeTx o → cellClaim s .closer = some (o, .notify) := fun o h => by
      simp [cellClaim, claimOf, h, closerCell]
    cases hm with
    | cCall o evs hp =>
      refine .inr ⟨by simp [Closing], ?_⟩
      simp only [Cell.step] at h1
      split at h1 <;> cases h1
      simp [Chan.lastRank, hp, Cell.State.goto, cellRank]
    | cStay o evs hp hr =>
      refine .inr ⟨hk, ?_⟩
      simp only [Chan.lastRank, hp]
      exact Nat.le_of_lt (cell_run_rank h1 (ho.sat _ _ _ (claim _ hp)) hr)
    | cEnd o evs hp hr => exact .inl (by simp)
    | notify j o evs hp =>
      exact .inr (keep rfl fun o' h' => ho.other (y := .rx) h1 (claim _ h') (fun l hl => .inl (hl.trans hn.1)) (by simp))
    | notifyStay j o evs hp hr =>
      exact .inr (keep rfl fun o' h' => ho.other (y := .snd j) h1 (claim _ h') (fun l hl => .inr ⟨.notify, by simp [cellClaim, claimOf, hp, sndCell, cellOp]⟩) (by simp))
    | notifyEnd j o evs hp hr =>
      exact .inr (keep rfl fun o' h' => ho.other (y := .snd j) h1 (claim _ h') (fun l hl => .inr ⟨.notify, by simp [cellClaim, claimOf, hp, sndCell, cellOp]⟩) (by simp))
    | wait v o evs hp =>
      exact .inr (keep rfl fun o' h' => ho.other (y := .rx) h1 (claim _ h') (fun l hl => .inl (hl.trans hn.1)) (by simp))
    | _ =>
      rename_i o v hp hr
      exact .inr (keep rfl fun o' h' => ho.other (y := .rx) h1 (claim _ h') (fun l hl => .inr ⟨.wait, by simp [cellClaim, claimOf, hp, rxCell]⟩) (by simp))

theorem step_lastRank {s' : State w V W} {act : Act V W} {evs : Trace V W} (hs : Chan.step c s act = some (s', evs)) (hc : CoreOwns s) (ho : CellOwns s)
    (hk : Closing s) (ha : closerAct act = true) : .api .lastTxDropped ∈ evs ∨ (Closing s' ∧ lastRank s' < lastRank s) := by
  cases act <;> simp [closerAct] at ha
  rename_i o
  simp only [Chan.step, closerStep] at hs
  split at hs
  · cases hs
  · cases hs
  · rename_i pan hp
    obtain ⟨s1, es, h1, h2, h3⟩ := onCore_eq hs
    simp only at h2
    subst h2
    exact .inr ⟨by simp [Closing], by simp [lastRank, hp]⟩
  · rename_i a hp
    obtain ⟨s1, es, h1, h2, h3⟩ := onCore_eq hs
    have hn := next_run (core_next h1).2
    obtain ⟨b, hb⟩ := (hn.2.2 (hc.sat .closer a .close (by simp [coreClaim, claimOf, hp, closerCore]))).2
    rw [hb] at h2 h3
    cases b <;> cases hbl : c.blocking <;> simp [afterTxClose, hbl] at h2 h3
    case false.true => exact .inl (by rw [h3]; simp)
    all_goals (subst h2; exact .inr ⟨by simp [Closing], by simp [lastRank, hp]⟩)
  · rename_i hp
    obtain ⟨s1, es, h1, h2, h3⟩ := onCell_eq hs
    simp only at h2
    subst h2
    refine .inr ⟨by simp [Closing], ?_⟩
    simp only [Cell.step] at h1
    split at h1 <;> cases h1
    simp [lastRank, hp, Cell.State.goto, cellRank]
  · rename_i o hp
    obtain ⟨s1, es, h1, h2, h3⟩ := onCell_eq hs
    by_cases hr : notifyOver es = true
    · simp [hr] at h3
      exact .inl (by rw [h3]; simp)
    · simp [hr] at h2
      subst h2
      refine .inr ⟨hk, ?_⟩
      simp only [lastRank, hp]
      exact cell_run_rank h1 (ho.sat .closer o .notify (by simp [cellClaim, claimOf, hp, closerCell])) (by simpa using hr)

theorem ExecM.lastEnds (h : Exec c tr s) (hk : Closing s) {acts : List (Act V W)} {s' : State w V W} {evs : Trace V W}
    (hr : runActs c s acts = some (s', evs)) (hn : 8 ≤ acts.countP closerAct) : .api .lastTxDropped ∈ evs :=
  ExecM.ends (live := Closing) (rank := lastRank) (own := closerAct)
    (fun _ _ h hl => lastRank_pos h.cellOwns hl) (fun _ _ _ _ _ h hl h1 ha => step_lastRank h1 h.coreOwns h.cellOwns hl ha)
    (fun _ _ _ _ _ h hl h1 => (step_tr h1).lastRank h.coreOwns h.cellOwns h.hinv hl) h hk hr (Nat.le_trans (lastRank_le s) hn)

theorem Run.last_can (h : Run c tr s) (hk : Closing s) : ∃ (o : Nat) (s' : State w V W) (evs : Trace V W), Chan.step c s (.closer o) = some (s', evs) := by
  cases hp : s.closer
  case none => exact absurd hp hk.1
  case done => exact absurd hp hk.2
  case toClose pan =>
    obtain ⟨o, ho⟩ := h.core_idle
    refine ⟨o, ?_⟩
    simp [Chan.step, closerStep, hp, onCore, Thingbuf.step, ho]
  case closing a =>
    have := h.exec.coreOwns.sat .closer a .close (by simp [coreClaim, claimOf, hp, closerCore])
    refine ⟨0, ?_⟩
    cases hq : s.core.pc a <;> rw [hq] at this <;> simp [coreKind] at this
    simp [Chan.step, closerStep, hp, onCore, Thingbuf.step, runStep, hq]
  case toCloseTx =>
    obtain ⟨o, ho⟩ := h.exec.cell_idle
    refine ⟨o, ?_⟩
    simp [Chan.step, closerStep, hp, onCell, Cell.step, ho]
  case closeTx o =>
    have := h.exec.cellOwns.sat .closer o .notify (by simp [cellClaim, claimOf, hp, closerCell])
    obtain ⟨s1, evs, h1⟩ := cell_run_some c.cell this
    refine ⟨0, ?_⟩
    simp [Chan.step, closerStep, hp, onCell, h1]

end Thingbuf.Chan
