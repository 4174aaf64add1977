import Verif.WeakOrderInv
import Verif.ChanWake
import Verif.WeakProps

/-!
# The receiver of the channel on the memory model

Helper lemmas for `WeakRxProps`.
-/

namespace Thingbuf.Chan

section
variable {w : Nat} {V W : Type} {c : Config W} {tr : Trace V W} {s : State w V W} {m : Bool}

/-- A pop that has been called and has not returned is in progress. -/
theorem ExecM.popping (h : ExecM m c tr s) (a : OpId) : .core (.invoke a .pop) ∈ tr → (∃ r, .core (.ret a r) ∈ tr) ∨ coreKind (s.core.pc a) = some .pop := by
  refine ExecM.ind (P := fun tr s => .core (.invoke a .pop) ∈ tr → (∃ r, .core (.ret a r) ∈ tr) ∨ coreKind (s.core.pc a) = some .pop)
    ?_ (fun _ _ _ _ _ ih _ => ih) ?_ ?_ ?_ ?_ ?_ tr s h
  · simp
  · intro tr s core cell _ ih h1 _ hi
    simp only [h1]; exact ih hi
  · intro tr s t e he ih hm hi
    have : t.core = s.core := by cases hm <;> rfl
    rw [this]
    simpa using ih (by simpa using hi)
  · intro tr s act s1 evs r t es he ih h1 hr hm hi
    have hev := core_evs h1
    obtain ⟨hk1, hk2⟩ := core_next h1
    by_cases ha : a = actOp act
    · subst ha
      have hi' : .core (.invoke (actOp act) .pop) ∈ tr ∨ act = .invoke (actOp act) .pop := by
        have : .core (.invoke (actOp act) .pop) ∈ tr ∨ .invoke (actOp act) .pop ∈ evs := by simpa using hi
        exact this.imp id (hev.inv _ _).1
      rcases hi' with hi' | hi'
      · rcases ih hi' with ⟨r', h2⟩ | h2
        · exact .inl ⟨r', by simp [h2]⟩
        · rw [h2] at hk2
          by_cases hret : coreRet evs = none
          · right
            show coreKind (s1.pc (actOp act)) = some .pop
            cases act <;> simp only [NextKind, RunNext, hret] at hk2 <;> simp_all
          · obtain ⟨r', hr'⟩ := Option.ne_none_iff_exists'.1 hret
            exact .inl ⟨r', by simp [hev.ret' _ hr']⟩
      · right
        show coreKind (s1.pc (actOp act)) = some .pop
        rw [hi'] at hk2 ⊢
        exact hk2.2.2.2.2 rfl
    · have h2 : .core (.invoke a .pop) ∈ tr := by
        have : .core (.invoke a .pop) ∈ tr ∨ .invoke a .pop ∈ evs := by simpa using hi
        rcases this with h3 | h3
        · exact h3
        · have := (hev.inv _ _).1 h3
          subst this; exact absurd rfl ha
      rcases ih h2 with ⟨r', h3⟩ | h3
      · exact .inl ⟨r', by simp [h3]⟩
      · right; show coreKind (s1.pc a) = _; rw [hk1 a ha]; exact h3
  · intro tr s act s1 evs t es he ih h1 hm hi
    have : t.core = s.core := by cases hm <;> rfl
    show _ ∨ coreKind (t.core.pc a) = _
    rw [this]
    simpa using ih (by simpa using hi)
  · intro tr s act s1 evs t es he ih h1 hm hi
    have : t.core = s.core := by cases hm <;> rfl
    show _ ∨ coreKind (t.core.pc a) = _
    rw [this]
    simpa using ih (by simpa using hi)

/-- While the receiver pops, nobody else takes an element. -/
theorem ExecM.one_pop (h : ExecM m c tr s) {pre post : Trace V W} {a b : OpId} {i : Nat} {x : Option V} (htr : tr = pre ++ .core (.dequeue b i x) :: post)
    (hi : .core (.invoke a .pop) ∈ pre) (hr : ∀ r, .core (.ret a r) ∉ pre) : b = a := by
  obtain ⟨tr0, s0, s1, l, r, rest, h0, ht, h1, rfl, rfl⟩ := h.at htr
  generalize hev : l ++ Ev.core (Event.dequeue b i x) :: r = evs at ht
  have hmem : Ev.core (Event.dequeue b i x) ∈ evs := by rw [← hev]; simp
  have hl : ∀ e ∈ l, e ∈ evs := fun e he => by rw [← hev]; simp [he]
  cases ht with
  | api hm => simp at hmem
  | cell h2 hm => simp at hmem
  | queue h2 hm => simp at hmem
  | @core act st evs t es h2 hm =>
    have hd : .dequeue b i x ∈ evs := by simpa using hmem
    obtain ⟨rfl, h3, h4⟩ := core_deq h2 hd
    have hi0 : .core (.invoke a .pop) ∈ tr0 := by
      rcases List.mem_append.1 hi with h5 | h5
      · exact h5
      · have : .invoke a .pop ∈ evs := by simpa using hl _ h5
        exact absurd (((core_evs h2).inv _ _).1 this) (h4 _ _)
    have hk : coreKind (s0.core.pc a) = some .pop := by
      rcases h0.popping a hi0 with ⟨r', h5⟩ | h5
      · exact absurd (List.mem_append_left _ h5) (hr r')
      · exact h5
    have only : ∀ d, coreKind (s0.core.pc d) = some .pop → rxCore s0.rx = some (d, .pop) := by
      intro d hd
      obtain ⟨x, hx⟩ := h0.coreOwns.cov d .pop hd
      cases x <;> simp only [coreClaim, claimOf] at hx
      · rename_i k; cases hp : s0.snd k <;> simp [hp, sndCore] at hx
      · exact hx
      · cases hp : s0.closer <;> simp [hp, closerCore] at hx
      · rename_i k; cases hp : s0.ref k <;> simp [hp, refCore] at hx
    have := (only _ h3).symm.trans (only _ hk)
    simpa using this

end

theorem filterMap_at {α β : Type} {f : α → Option β} {l : List α} {q : Nat} {y : β} (h : (l.filterMap f)[q]? = some y) :
    ∃ pre x post, l = pre ++ x :: post ∧ f x = some y ∧ (pre.filterMap f).length = q := by
  induction l generalizing q with
  | nil => simp at h
  | cons a l ih =>
    rw [List.filterMap_cons] at h
    split at h
    · rename_i hf
      obtain ⟨pre, x, post, h1, h2, h3⟩ := ih h
      exact ⟨a :: pre, x, post, by rw [h1]; rfl, h2, by rw [List.filterMap_cons_none hf]; exact h3⟩
    · rename_i z hf
      cases q with
      | zero => cases h; exact ⟨[], a, l, rfl, hf, rfl⟩
      | succ q =>
        obtain ⟨pre, x, post, h1, h2, h3⟩ := ih (by simpa using h)
        exact ⟨a :: pre, x, post, by rw [h1]; rfl, h2, by rw [List.filterMap_cons_some hf]; simp [h3]⟩

section
variable {w : Nat} {V : Type} {o : RA.Orders} {co : RA.CellOrders} {c : Config Nat} {th : Thread → OpId} {tr : Trace V Nat} {xtr : List (RA.REv V)} {s : WState w V}

open RA (XEv AtX HB)

/-- The events of the ring buffer and of the wait cell, in order. -/
def memEv : Ev V Nat → Option (XEv V)
  | .core e => some (.core e)
  | .cell e => some (.cell e)
  | _ => none

def memOf (tr : Trace V Nat) : List (XEv V) := tr.filterMap memEv

theorem memOf_append (t u : Trace V Nat) : memOf (t ++ u) = memOf t ++ memOf u := by simp [memOf]
theorem memOf_cons {e : Ev V Nat} {x : XEv V} (h : memEv e = some x) (u : Trace V Nat) : memOf (e :: u) = x :: memOf u := List.filterMap_cons_some h

theorem memOf_core (evs : List (Event V)) : memOf (evs.map .core) = evs.map .core := by
  induction evs with
  | nil => rfl
  | cons e l ih => exact congrArg (_ :: ·) ih
theorem memOf_cell (evs : List (Cell.Event Nat)) : memOf (evs.map (.cell : _ → Ev V Nat)) = evs.map .cell := by
  induction evs with
  | nil => rfl
  | cons e l ih => exact congrArg (_ :: ·) ih
theorem memOf_queue (evs : List (Queue.Event Nat)) : memOf (evs.map (.queue : _ → Ev V Nat)) = [] := by
  induction evs with
  | nil => rfl
  | cons e l ih => exact ih

theorem memOf_nil {t : Trace V Nat} (h1 : coreOf t = []) (h2 : cellOf t = []) : memOf t = [] := by
  refine List.filterMap_eq_nil_iff.2 fun e he => ?_
  cases e with
  | core e => have := mem_coreOf.2 he; rw [h1] at this; cases this
  | cell e => have := mem_cellOf.2 he; rw [h2] at this; cases this
  | queue e => rfl
  | api e => rfl

theorem coreOf_memOf (t : Trace V Nat) : coreOf t = (memOf t).filterMap XEv.core? := by
  induction t with
  | nil => rfl
  | cons e t ih =>
    cases e <;> first
      | exact congrArg (_ :: ·) ih
      | exact ih

theorem map_core {l : List (RA.REv V)} (h : RA.cellOf l = []) : l.map Prod.fst = (RA.evsOf l).map .core := by
  induction l with
  | nil => rfl
  | cons e l ih =>
    obtain ⟨e, x⟩ := e
    cases e with
    | core e => exact congrArg (_ :: ·) (ih h)
    | cell e => simp [RA.cellOf, XEv.cell?] at h

theorem map_cell {l : List (RA.REv V)} (h : RA.evsOf l = []) : l.map Prod.fst = (RA.cellOf l).map .cell := by
  induction l with
  | nil => rfl
  | cons e l ih =>
    obtain ⟨e, x⟩ := e
    cases e with
    | cell e => exact congrArg (_ :: ·) (ih h)
    | core e => simp [RA.evsOf, XEv.core?] at h

/-- The events of the ring buffer and of the wait cell come in the same order in both traces. -/
theorem WExec.order (h : WExec o co c w tr xtr s) : memOf tr = xtr.map Prod.fst := by
  induction h with
  | init => rfl
  | sync _ _ _ ih => exact ih
  | step h hs ht ih =>
    clear ht
    rw [memOf_append, List.map_append, ih]
    congr 1
    unfold wstep at hs
    split at hs
    · cases hs
    · cases hs
      exact memOf_nil (plan_api ‹_›).1.1 (plan_api ‹_›).1.2.1
    · split at hs <;> cases hs
      rename_i a k hp _ m hr
      rw [memOf_append, memOf_core, memOf_nil (core_api hp _ _).1 (core_api hp _ _).2.1, map_core (RA.cellOf_rstep hr), List.append_nil]
    · split at hs <;> cases hs
      rename_i a k hp _ x hr
      rw [memOf_append, memOf_cell, memOf_nil (cell_api hp _ _).1 (cell_api hp _ _).2.1, map_cell (RA.cellStep_code hr).2.1, List.append_nil]
    · split at hs <;> cases hs
      rename_i a k hp _ l evs hr
      rw [memOf_append, memOf_queue, memOf_nil (queue_api hp _ _).1 (queue_api hp _ _).2.1]; rfl

/-- The position of an event. -/
theorem WExec.at_pos (h : WExec o co c w tr xtr s) {pre post : Trace V Nat} {e : Ev V Nat} {x : XEv V} (htr : tr = pre ++ e :: post) (he : memEv e = some x) :
    AtX xtr (memOf pre).length x := by
  unfold AtX
  rw [← h.order, htr, memOf_append, memOf_cons he, List.getElem?_append_right (Nat.le_refl _), Nat.sub_self]; rfl

theorem WExec.of_pos (h : WExec o co c w tr xtr s) {q : Nat} {x : XEv V} (hq : AtX xtr q x) :
    ∃ pre e post, tr = pre ++ e :: post ∧ memEv e = some x ∧ (memOf pre).length = q := by
  unfold AtX at hq
  rw [← h.order] at hq
  exact filterMap_at hq

theorem WExec.evs_take (h : WExec o co c w tr xtr s) {pre post : Trace V Nat} (htr : tr = pre ++ post) : RA.evsOf (xtr.take (memOf pre).length) = coreOf pre := by
  rw [RA.evsOf_map, List.map_take, ← h.order, htr, memOf_append, List.take_left, coreOf_memOf]

theorem WExec.pos_after (h : WExec o co c w tr xtr s) {pre post : Trace V Nat} (htr : tr = pre ++ post) {q : Nat} {x : XEv V} (hq : AtX xtr q x)
    (hlt : (memOf pre).length ≤ q) : ∃ f ∈ post, memEv f = some x := by
  unfold AtX at hq
  rw [← h.order, htr, memOf_append, List.getElem?_append_right hlt] at hq
  exact List.mem_filterMap.1 (List.mem_of_getElem? hq)

theorem WExec.pos_before (h : WExec o co c w tr xtr s) {pre post : Trace V Nat} (htr : tr = pre ++ post) {q : Nat} {x : XEv V} (hq : AtX xtr q x)
    (hlt : q < (memOf pre).length) : ∃ f ∈ pre, memEv f = some x := by
  unfold AtX at hq
  rw [← h.order, htr, memOf_append, List.getElem?_append_left hlt] at hq
  exact List.mem_filterMap.1 (List.mem_of_getElem? hq)

theorem memEv_core {f : Ev V Nat} {e : Event V} (h : memEv f = some (.core e)) : f = .core e := by
  cases f <;> cases h; rfl
theorem memEv_cell {f : Ev V Nat} {e : Cell.Event Nat} (h : memEv f = some (.cell e)) : f = .cell e := by
  cases f <;> cases h; rfl

end

section
variable {w : Nat} {V : Type} {c : Config Nat} {th : Thread → OpId} {tr : Trace V Nat} {xtr : List (RA.REv V)} {s : WState w V}

open RA (XEv AtX HB)

theorem WRun.retWait_of (h : WRun c w tr xtr s) {a : OpId} {p q : Nat} (hp : AtX xtr p (.cell (.callWait a))) (hr : Cell.Returned (RA.cellOf (xtr.take q)) a) :
    ∃ n r, n < q ∧ AtX xtr n (.cell (.retWait a r)) := by
  rcases hr with ⟨r, h1⟩ | ⟨y, h1⟩ | h1
  · obtain ⟨n, hn, h2⟩ := RA.mem_cellTake h1
    exact ⟨n, r, hn, h2⟩
  · obtain ⟨n, hn, h2⟩ := RA.mem_cellTake h1
    obtain ⟨⟨x, h3⟩, -⟩ := h.mem.inv.cell.at h.std h2
    obtain ⟨n', -, h4⟩ := RA.mem_cellTake h3
    obtain ⟨h5, -⟩ := h.mem.inv.cell.at h.std h4
    obtain ⟨n'', -, h6⟩ := RA.mem_cellTake h5
    rcases Nat.lt_trichotomy p n'' with hlt | rfl | hlt
    · exact absurd (.inl (hp.take hlt).cellOf) (h.mem.inv.cell.at h.std h6)
    · cases hp.inj h6
    · exact absurd (.inr ⟨x, (h6.take hlt).cellOf⟩) (h.mem.inv.cell.at h.std hp)
  · obtain ⟨n, hn, h2⟩ := RA.mem_cellTake h1
    obtain ⟨n', -, h3⟩ := RA.C51_no_assert h.mem h2
    have := h3.cellOf
    rw [← h.exec.evs.2] at this
    exact absurd (mem_cellOf.1 this) (h.exec.ctl.1.no_mkPanic a)

theorem WRun.no_assert (h : WRun c w tr xtr s) (d : OpId) (n : Nat) : ¬ AtX xtr n (.cell (.assertFailed d)) := fun h2 => by
  obtain ⟨n', -, h3⟩ := RA.C51_no_assert h.mem h2
  have := h3.cellOf
  rw [← h.exec.evs.2] at this
  exact h.exec.ctl.1.no_mkPanic d (mem_cellOf.1 this)

theorem WRun.retNotify_of (h : WRun c w tr xtr s) {a : OpId} {x : Bool} {p : Nat} (hp : AtX xtr p (.cell (.callNotify a x))) (hr : Cell.Returned (RA.cellOf xtr) a) :
    ∃ n y, AtX xtr n (.cell (.retNotify a y)) := by
  rcases hr with ⟨r, h1⟩ | ⟨y, h1⟩ | h1
  · obtain ⟨n, h2⟩ := RA.mem_cellOf h1
    obtain ⟨h3, -⟩ := h.mem.inv.cell.at h.std h2
    obtain ⟨n', -, h4⟩ := RA.mem_cellTake h3
    rcases Nat.lt_trichotomy p n' with hlt | rfl | hlt
    · exact absurd (.inr ⟨x, (hp.take hlt).cellOf⟩) (h.mem.inv.cell.at h.std h4)
    · cases hp.inj h4
    · exact absurd (.inl (h4.take hlt).cellOf) (h.mem.inv.cell.at h.std hp)
  · obtain ⟨n, h2⟩ := RA.mem_cellOf h1
    exact ⟨n, y, h2⟩
  · obtain ⟨n, h2⟩ := RA.mem_cellOf h1
    exact absurd h2 (h.no_assert a n)

theorem WRun.cellQuiet (h : WRun c w tr xtr s) (hq : Cell.Quiescent (cellOf tr)) : RA.CellQuiet xtr := by
  rw [h.exec.evs.2] at hq
  constructor
  · intro a p hp
    obtain ⟨n, r, -, h1⟩ := h.retWait_of (q := xtr.length) hp (by rw [List.take_length]; exact hq a (.inl hp.cellOf))
    exact ⟨n, r, h1⟩
  · intro a x p hp
    exact h.retNotify_of hp (hq a (.inr ⟨x, hp.cellOf⟩))

/-- An execution with the memory orderings of the source, of a channel whose threads run their code in order, and whose capacity fits into the words, in a `std` build. -/
structure PRun (c : Config Nat) (w : Nat) {V : Type} (th : Thread → OpId) (tr : Trace V Nat) (xtr : List (RA.REv V)) (s : WState w V) : Prop where
  sized : WellSized w c.cap
  std : c.cell.std = true
  exec : PExec .source .source c w th tr xtr s

theorem PRun.wrun (h : PRun c w th tr xtr s) : WRun c w tr xtr s := ⟨h.sized, h.std, h.exec.wexec⟩

theorem PRun.known (h : PRun c w th tr xtr s) : Known th xtr s := h.exec.known h.sized RA.source_synchronised

theorem PRun.oneReceiver (h : PRun c w th tr xtr s) : RA.OneReceiver xtr := by
  intro a b p q hpq hp hq
  have h1 := h.wrun.exec.ctl.1.oneRx
  rw [h.wrun.exec.evs.2] at h1
  obtain ⟨n, r, hn, h2⟩ := h.wrun.retWait_of hp (h1 _ _ _ hq.cellSplit a (hp.take hpq).cellOf)
  exact ⟨n, r, h2, h.known.rxThen n q _ _ hn h2 rfl hq rfl⟩

/-- The receiver knows of all the messages that were taken, when it pops. -/
theorem PRun.deq_known (h : PRun c w th tr xtr s) {i j : Nat} {d : OpId} {r : Ret} (hi : RA.At xtr i (.invoke d .pop)) (hj : RA.At xtr j (.ret d r)) :
    ∀ n b' j' x', n < j → RA.At xtr n (.dequeue b' j' x') → b' ≠ d → HB xtr n i := by
  intro n b j' z hn hd hb
  rcases Nat.lt_trichotomy n i with hlt | rfl | hlt
  · exact h.known.rxThen n i _ _ hlt hd rfl hi rfl
  · cases hd.inj hi
  · obtain ⟨pre, e, post, h1, h2, h3⟩ := h.wrun.exec.of_pos hd
    cases memEv_core h2
    refine absurd (h.wrun.exec.ctl.1.one_pop (a := d) h1 ?_ ?_) hb
    · obtain ⟨f, h4, h5⟩ := h.wrun.exec.pos_before h1 hi (by omega)
      cases memEv_core h5; exact h4
    · intro r' hr'
      obtain ⟨x, y, rfl⟩ := List.append_of_mem hr'
      have h4 := h.wrun.exec.at_pos (pre := x) (e := .core (.ret d r')) (post := y ++ .core (.dequeue b j' z) :: post) (by rw [h1]; simp) rfl
      have h5 : (memOf x).length < j := by
        rw [memOf_append, List.length_append] at h3; omega
      have := h.wrun.mem.facts.evOk hj.split
      exact this.2.1 ⟨r', RA.At.mem_take h4 h5⟩

/-- The message that is the oldest one when a pop is called has been sent, if the oldest one now has been. -/
theorem WRun.oldest_then (h : WRun c w tr xtr s) {pre post : Trace V Nat} (htr : tr = pre ++ post) (ho : OldestSent tr) :
    ∃ b k l y, (resOps (RA.evsOf xtr))[nDeq (RA.evsOf (xtr.take (memOf pre).length))]? = some b ∧ RA.At xtr k (.commit b l y) := by
  rw [h.exec.evs_take htr, ← h.exec.evs.1]
  obtain ⟨a, ha, hac⟩ := ho
  have hpre : coreOf tr = coreOf pre ++ coreOf post := by rw [htr, coreOf_append]
  have hle : nDeq (coreOf pre) ≤ nDeq (coreOf tr) := by
    rw [hpre]; simp only [nDeq, deqOps_append, List.length_append]; omega
  obtain ⟨b, hb, l, y, hbc⟩ : ∃ b, (resOps (coreOf tr))[nDeq (coreOf pre)]? = some b ∧ Committed (coreOf tr) b := by
    rcases Nat.lt_or_eq_of_le hle with hlt | heq
    · have hn : nDeq (coreOf tr) < (resOps (coreOf tr)).length := (List.getElem?_eq_some_iff.1 ha).1
      have hb := List.getElem?_eq_getElem (l := resOps (coreOf tr)) (i := nDeq (coreOf pre)) (by omega)
      exact ⟨_, hb, h.facts.dequeued_committed (List.prefix_refl _) hb hlt⟩
    · exact ⟨a, by rw [heq]; exact ha, hac⟩
  obtain ⟨x, z, hxz⟩ := List.append_of_mem (mem_coreOf.1 hbc)
  exact ⟨b, _, l, y, hb, h.exec.at_pos hxz rfl⟩

/-- A receiver that has registered its waker: what the theorems about the wait cell ask for. -/
theorem WRun.reg (h : WRun c w tr xtr s) (hone : RA.OneReceiver xtr) {v : Nat} {m2 : Trace V Nat} (hr : Reg tr v m2) :
    ∃ A a k, tr = A ++ .cell (.retWait a .wait) :: m2 ∧ AtX xtr (memOf A).length (.cell (.retWait a .wait)) ∧ k < (memOf A).length ∧ AtX xtr k (.cell (.mk a v)) ∧
      ∀ d q, (memOf A).length < q → ¬ AtX xtr q (.cell (.retWait d .wait)) := by
  obtain ⟨m1, a, ⟨⟨pre, h1⟩, _⟩, _, h3, h4, _⟩ := hr
  have htr : tr = (pre ++ .api (.callPoll v) :: m1) ++ .cell (.retWait a .wait) :: m2 := by rw [h1]; simp
  have hp := h.exec.at_pos htr rfl
  obtain ⟨u, k, hk, h5, -⟩ := RA.C51_wait_registers h.mem hone hp
  have h6 := h5.cellOf
  rw [← h.exec.evs.2] at h6
  have := h3 u (mem_cellOf.1 h6)
  subst this
  refine ⟨_, a, k, htr, hp, hk, h5, fun d q hq h7 => ?_⟩
  obtain ⟨f, hf, h8⟩ := h.exec.pos_after (pre := (pre ++ .api (.callPoll u) :: m1) ++ [.cell (.retWait a .wait)]) (post := m2) (by rw [htr]; simp) h7 (by
    rw [memOf_append, List.length_append]; show _ + 1 ≤ _; omega)
  cases memEv_cell h8
  exact h4 d hf

/-- A wake-up after the registration. -/
theorem WRun.wake_after (h : WRun c w tr xtr s) {A m2 : Trace V Nat} {e : Ev V Nat} (htr : tr = A ++ e :: m2) (he : ∀ d v, e ≠ .cell (.wake d v)) {q v : Nat} {d : OpId}
    (hq : AtX xtr q (.cell (.wake d v))) (hlt : (memOf A).length < q) : .cell (.wake d v) ∈ m2 := by
  obtain ⟨f, hf, h1⟩ := h.exec.pos_after htr hq (by omega)
  cases memEv_cell h1
  rcases List.mem_cons.1 hf with h2 | h2
  · exact absurd h2.symm (he d v)
  · exact h2

/-- A receiver whose last poll returned `Pending` has been woken if the oldest message has been sent. -/
theorem PRun.rx_woken (h : PRun c w th tr xtr s) {v : Nat} {post : Trace V Nat} (hs : Since tr v post) (hp : .api (.retPoll .pending) ∈ post)
    (hd : ∀ b, .api (.dropRx b) ∉ tr) (hq : ∀ k, ¬ SendEnding tr k) (hq' : ¬ LastTxEnding tr) (ho : OldestSent tr) :
    ∃ d, .cell (.wake d v) ∈ post := by
  have hE := h.wrun.exec.ctl.1
  obtain ⟨hrx, m2, a, r, hr, h1, h2, h3, h4⟩ := hE.pending hs hp hd
  have hone := h.oneReceiver
  obtain ⟨A, o, k, htr, hpA, hkA, hmk, hlast⟩ := h.wrun.reg hone hr
  have hquiet := h.wrun.cellQuiet (hE.quiescent hq hq' hrx)
  have hsub : ∀ e ∈ m2, e ∈ post := by
    obtain ⟨m1, o', h5, _⟩ := hr
    obtain ⟨-, rfl⟩ := hs.uniq h5
    intro e he; simp [he]
  obtain ⟨x, y, hxy⟩ := List.append_of_mem h1
  have hti : tr = (A ++ .cell (.retWait o .wait) :: x) ++ .core (.invoke a .pop) :: y := by rw [htr, hxy]; simp
  have hi := h.wrun.exec.at_pos hti rfl
  have hpi : HB xtr (memOf A).length (memOf (A ++ .cell (.retWait o .wait) :: x)).length :=
    h.known.rxThen _ _ _ _ (by rw [memOf_append, memOf_cons (x := .cell (.retWait o .wait)) rfl]; simp) hpA rfl hi rfl
  obtain ⟨x', y', hxy'⟩ := List.append_of_mem h2
  have hj := h.wrun.exec.at_pos (pre := A ++ .cell (.retWait o .wait) :: x') (e := .core (.ret a r)) (post := y') (by rw [htr, hxy']; simp) rfl
  obtain ⟨b, n, l, z, hb, hc⟩ := h.wrun.oldest_then hti ho
  rcases h.known.snd n b l z hc with ⟨k', h5, -⟩ | ⟨n', d, h5, h6⟩
  · exact absurd (hE.sendEnding (.inl h5)) (hq k')
  · obtain ⟨q, f, h7, h8⟩ := RA.C51_no_lost_wakeup h.wrun.mem hone hquiet h.wrun.no_assert hpA hmk hkA hlast hi hpi hj h3 (h.deq_known hi hj) hb hc h5 h6
    exact ⟨f, hsub _ (h.wrun.wake_after htr (by simp) h8 h7)⟩

end

end Thingbuf.Chan
