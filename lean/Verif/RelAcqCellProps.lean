import Verif.RelAcqCellDemo
/-
C51: the receiver's wait cell and the ring buffer together, under the memory orderings written in the source.

`XExec Orders.source CellOrders.source c w cap tr s` (`Verif/RelAcqCell.lean`): `tr` is the trace of an execution
of any number of operations on the ring buffer and on the wait cell, on a release/acquire machine: loads may return stale
values, and so may failing compare-and-swaps and reads of the stored waker, unless something that happened before forbids
it.  The vocabulary is that of `Verif/RelAcqSpec.lean`, `Verif/CellSpec.lean` and `Verif/Spec.lean`.
-/
namespace Thingbuf.RA

variable {w cap : Nat} {V : Type} {o : Orders} {co : CellOrders} {c : Cell.Config} {tr : List (REv V)} {s : XState w V}

theorem source_cellSync : CellSync CellOrders.source := ⟨rfl, rfl, rfl, rfl, rfl, rfl, rfl, rfl⟩

/-- An execution of the code with the orderings written in the source, built with the standard library. -/
structure XRun (c : Cell.Config) (w cap : Nat) {V : Type} (tr : List (REv V)) (s : XState w V) : Prop where
  sized : WellSized w cap
  std : c.std = true
  exec : XExec Orders.source CellOrders.source c w cap tr s

theorem XRun.inv (h : XRun c w cap tr s) : XInv w cap c tr s :=
  h.exec.xinv h.sized source_synchronised source_cellSync h.std

theorem XRun.minv (h : XRun c w cap tr s) : MInv tr s :=
  h.exec.minv h.sized source_synchronised source_cellSync h.std

theorem XRun.facts (h : XRun c w cap tr s) : Facts False w cap (evsOf tr) :=
  ⟨h.sized, h.inv.base.inv.base.evs, h.inv.base.inv.base.y⟩

/-! ### Concrete schedules -/

/-- What `poll_recv_ref` does (/repo/src/mpsc.rs lines 404-451) on an empty channel: it registers its waker and tries
to pop once more.  Then another thread pushes and notifies. -/
def wakeActs : List (XAct Nat) :=
  xWait 20 5 0 0 ++ [.core (.sync 20 21), .core (.invoke 21 .pop), .core (.run 21 0 0), .core (.run 21 0 0),
    .core (.run 21 0 1)] ++
  (rPush 0 1 0 0 10 ++ ([.dropRef 0 1, .sync 0 30] : List (RAct Nat))).map .core ++ xNotify 30 false 2 1

def wakeTr : List (REv Nat) := xTrace .source wakeActs

theorem wakeRun : ∃ s, XRun ⟨true, true⟩ 8 1 wakeTr s := by
  obtain ⟨s, hs⟩ := xTrace_exec .source wakeActs (by decide +kernel) (by decide +kernel)
  exact ⟨s, by decide, rfl, hs⟩

/-! ### No data races on the stored waker -/

/-- Which orderings matter for the waker. -/
theorem C51_waker_race_free_orders (hw : WellSized w cap) (ho : Synchronised o) (hco : CellSync co) (hstd : c.std = true)
    (h : XExec o co c w cap tr s) {p q : Nat} {e f : Cell.Event Nat} (hpq : p < q) (hp : AtX tr p (.cell e))
    (hq : AtX tr q (.cell f)) (he : wakerEv e = true) (hf : wakerEv f = true) : HB tr p q :=
  (h.xinv hw ho hco hstd).sig.race p q hpq ⟨e, hp, he⟩ ⟨f, hq, hf⟩

/-- **C51** Any two accesses to the stored waker, which is not atomic, are ordered by "happens before". -/
theorem C51_waker_race_free (h : XRun c w cap tr s) {p q : Nat} {e f : Cell.Event Nat} (hpq : p < q)
    (hp : AtX tr p (.cell e)) (hq : AtX tr q (.cell f)) (he : wakerEv e = true) (hf : wakerEv f = true) : HB tr p q :=
  C51_waker_race_free_orders h.sized source_synchronised source_cellSync h.std h.exec hpq hp hq he hf

example : AtX wakeTr 2 (.cell (.accBegin 20)) ∧ AtX wakeTr 15 (.cell (.accBegin 30)) := by
  constructor <;> decide +kernel

/-- **C51** The accesses to the elements do not race either when operations of the wait cell are going on. -/
theorem C51_element_race_free (h : XRun c w cap tr s) {p q i : Nat} {e f : Event V} (hpq : p < q)
    (hp : At tr p e) (hq : At tr q f) (he : touched e = some i) (hf : touched f = some i) : HB tr p q := by
  obtain ⟨e', he', h1⟩ := hp.ev
  obtain ⟨f', hf', h2⟩ := hq.ev
  exact ⟨f', hf', h.inv.base.inv.race p q i f' hpq ⟨e', he', by rw [h1]; exact he⟩ hf' (by rw [h2]; exact hf)⟩

/-! ### Registration -/

/-- **C51** With one receiver, `wait_with` returns `Wait` only if it has obtained a waker and registered it. -/
theorem C51_wait_registers (h : XRun c w cap tr s) (hone : OneReceiver tr) {q : Nat} {a : OpId}
    (hq : AtX tr q (.cell (.retWait a .wait))) :
    ∃ v m, m < q ∧ AtX tr m (.cell (.mk a v)) ∧ AtX tr (q - 1) (.cell (.register a v)) := by
  obtain ⟨v, h0, h1⟩ := wait_registers h.std h.inv hone hq
  obtain ⟨m, h2, h3⟩ := mem_cellTake (h.inv.cell.at h.std h1).1
  exact ⟨v, m, by omega, h3, h1⟩

theorem wakeTr_one : OneReceiver wakeTr := oneReceiver_of (by decide +kernel)

example : AtX wakeTr 5 (.cell (.retWait 20 .wait)) ∧ OneReceiver wakeTr := ⟨by decide +kernel, wakeTr_one⟩

/-- **C51** The debug assertions of the cell fail only after `with_waker` (e.g. `Waker::clone`) has panicked. -/
theorem C51_no_assert (h : XRun c w cap tr s) {q : Nat} {a : OpId} (hq : AtX tr q (.cell (.assertFailed a))) :
    ∃ m, m < q ∧ AtX tr m (.cell (.mkPanic a)) :=
  mem_cellTake (h.inv.cell.at h.std hq)

/-- A waker is registered; the factory of the next call panics while a notification arrives. -/
def assertActs : List (XAct Nat) :=
  xWait 20 5 0 0 ++ [.core (.sync 20 22), .cell (.callWait 22) 0, .cell (.run 22) 2, .cell (.mkPanic 22) 0,
    .cell (.callNotify 30 false) 0, .cell (.run 30) 3, .cell (.run 22) 4, .cell (.run 22) 0, .cell (.run 22) 1,
    .cell (.run 22) 4, .cell (.run 22) 0]

example : (∃ s, XRun ⟨true, true⟩ 8 1 (xTrace .source assertActs) s) ∧
    AtX (xTrace .source assertActs) 13 (.cell (.assertFailed 22)) := by
  obtain ⟨s, hs⟩ := xTrace_exec .source assertActs (by decide +kernel) (by decide +kernel)
  exact ⟨⟨s, by decide, rfl, hs⟩, by decide +kernel⟩

/-! ### No lost wakeups -/

/-- What the receiver is waiting for. -/
theorem XRun.registered (h : XRun c w cap tr s) (hone : OneReceiver tr) {p m : Nat} {a : OpId} {v : Nat}
    (hp : AtX tr p (.cell (.retWait a .wait))) (hv : AtX tr m (.cell (.mk a v))) (hmp : m < p) :
    0 < p ∧ AtX tr (p - 1) (.cell (.register a v)) := by
  obtain ⟨v', h0, h1⟩ := wait_registers h.std h.inv hone hp
  have hne : m ≠ p - 1 := by
    rintro rfl
    cases hv.inj h1
  have h2 := (h.inv.cell.at h.std h1).2.2 v (hv.take (by omega : m < p - 1)).cellOf
  subst h2
  exact ⟨h0, h1⟩

theorem XRun.woken (h : XRun c w cap tr s) (hone : OneReceiver tr) (hq : CellQuiet tr)
    (hass : ∀ d n, ¬ AtX tr n (.cell (.assertFailed d))) {p n m : Nat} {a b : OpId} {v : Nat} {x : Bool}
    (hp : AtX tr p (.cell (.retWait a .wait))) (hv : AtX tr m (.cell (.mk a v))) (hmp : m < p)
    (hlast : ∀ d q, p < q → ¬ AtX tr q (.cell (.retWait d .wait)))
    (hn : AtX tr n (.cell (.signal b x))) (hpn : p - 1 < n) :
    ∃ q d, p < q ∧ AtX tr q (.cell (.wake d v)) := by
  obtain ⟨h0, h1⟩ := h.registered hone hp hv hmp
  obtain ⟨q, d, h2, h3⟩ := woken_of_signal h.std h.inv.cell h.minv hq hass h1
    (fun d q hq => hlast d q (by omega)) hn hpn
  refine ⟨q, d, ?_, h3⟩
  have : q ≠ p := by
    rintro rfl
    cases h3.inj hp
  omega

/-- **C51** A notification or close that is called after the receiver was told to wait wakes it: when no call is in
progress, the waker `v` of the receiver has been woken, unless the receiver has registered again. -/
theorem C51_notified (h : XRun c w cap tr s) (hone : OneReceiver tr) (hq : CellQuiet tr)
    (hass : ∀ d n, ¬ AtX tr n (.cell (.assertFailed d))) {p n m : Nat} {a b : OpId} {v : Nat} {x : Bool}
    (hp : AtX tr p (.cell (.retWait a .wait))) (hv : AtX tr m (.cell (.mk a v))) (hmp : m < p)
    (hlast : ∀ d q, p < q → ¬ AtX tr q (.cell (.retWait d .wait)))
    (hn : AtX tr n (.cell (.callNotify b x))) (hpn : p < n) :
    ∃ q d, p < q ∧ AtX tr q (.cell (.wake d v)) := by
  obtain ⟨k, y, hk⟩ := hq.2 b x n hn
  obtain ⟨j, h1, _, h2⟩ := h.inv.cell.signal_of_ret h.std hn hk
  exact h.woken hone hq hass hp hv hmp hlast h2 (by omega)

/-- What the receiver and the sender do in `wakeTr`. -/
theorem wakeTr_meets : OneReceiver wakeTr ∧ CellQuiet wakeTr ∧ (∀ d n, ¬ AtX wakeTr n (.cell (.assertFailed d))) ∧
    AtX wakeTr 5 (.cell (.retWait 20 .wait)) ∧ AtX wakeTr 1 (.cell (.mk 20 5)) ∧
    (∀ d q, 5 < q → ¬ AtX wakeTr q (.cell (.retWait d .wait))) ∧ AtX wakeTr 13 (.cell (.callNotify 30 false)) :=
  ⟨wakeTr_one, cellQuiet_of (by decide +kernel), noAssert_of (by decide +kernel), by decide +kernel, by decide +kernel,
    lastWait_of (by decide +kernel), by decide +kernel⟩

/-- `C51_notified`: the waker is woken at 17. -/
example : ∃ q d, 5 < q ∧ AtX wakeTr q (.cell (.wake d 5)) := by
  obtain ⟨s, h⟩ := wakeRun
  obtain ⟨h1, h2, h3, h4, h5, h6, h7⟩ := wakeTr_meets
  exact C51_notified h h1 h2 h3 h4 h5 (by decide) h6 h7 (by decide)

/-- **C51** No lost wakeup, with nothing but the synchronisation in the source.  The receiver's call `a` of `wait_with`
was told to wait (at `p`, with the waker `v`), and it then called `pop_ref` (`d`, at `i`), which found the queue empty
(at `j`), as in `poll_recv_ref`.  Another thread has finished the push `b` of the oldest element (at `k`), and it has
then notified the cell (`e`, called at `n`).  Whichever way the two interleave, and whatever stale values they see:
when no call to the cell is in progress, `v` has been woken after `wait_with` returned. -/
theorem C51_no_lost_wakeup (h : XRun c w cap tr s) (hone : OneReceiver tr) (hq : CellQuiet tr)
    (hass : ∀ d n, ¬ AtX tr n (.cell (.assertFailed d))) {p i j k n m l : Nat} {a b d e : OpId} {v : Nat} {x : Bool}
    {y : Option V} {r : Ret}
    (hp : AtX tr p (.cell (.retWait a .wait))) (hv : AtX tr m (.cell (.mk a v))) (hmp : m < p)
    (hlast : ∀ d q, p < q → ¬ AtX tr q (.cell (.retWait d .wait)))
    (hi : At tr i (.invoke d .pop)) (hpi : HB tr p i) (hj : At tr j (.ret d r)) (hr : r ≠ .popped)
    (hd : ∀ n b' j' x', n < j → At tr n (.dequeue b' j' x') → b' ≠ d → HB tr n i)
    (hb : (resOps (evsOf tr))[nDeq (evsOf (tr.take i))]? = some b) (hk : At tr k (.commit b l y))
    (hn : AtX tr n (.cell (.callNotify e x))) (hkn : HB tr k n) :
    ∃ q f, p < q ∧ AtX tr q (.cell (.wake f v)) := by
  have hx := h.inv
  obtain ⟨h0, h1⟩ := h.registered hone hp hv hmp
  obtain ⟨z, y', hz⟩ := hq.2 e x n hn
  obtain ⟨g, h2, _, h3⟩ := hx.cell.signal_of_ret h.std hn hz
  refine h.woken hone hq hass hp hv hmp hlast h3 (Classical.byContradiction fun hlt => hr ?_)
  have hne : g ≠ p - 1 := by
    rintro rfl
    cases h3.inj h1
  have hb0 := hx.base.hb
  have h4 : HB tr g (p - 1) := hx.sig.sigReg g (p - 1) a v (by omega) ⟨e, x, h3⟩ h1
  have h5 : HB tr n g := hb0.same h2 hn h3 rfl
  have h6 : HB tr (p - 1) p := hb0.same (by omega) h1 hp rfl
  have h7 : HB tr k i := hb0.trans hkn (hb0.trans h5 (hb0.trans h4 (hb0.trans h6 hpi)))
  exact popped_known h.facts hx.base.ktr hb0 hi hj hd hb hk h7

/-- `C51_no_lost_wakeup`. -/
example : ∃ q d, 5 < q ∧ AtX wakeTr q (.cell (.wake d 5)) := by
  obtain ⟨s, h⟩ := wakeRun
  obtain ⟨h1, h2, h3, h4, h5, h6, h7⟩ := wakeTr_meets
  exact C51_no_lost_wakeup (i := 6) (j := 7) (k := 12) (l := 0) (b := 0) (d := 21) (r := .empty) (y := some 10) h h1 h2 h3 h4 h5
    (by decide) h6 (by decide +kernel) (by decide +kernel) (by decide +kernel) (by decide) (noDequeue_of (by decide +kernel))
    (by decide +kernel) (by decide +kernel) h7 (by decide +kernel)

/-- The other order: the notification comes first, and the receiver does not know of it until it registers; then its
pop has to find the element. -/
def lateTr : List (REv Nat) :=
  xTrace .source (xPushed ++ xNotify 30 false 0 0 ++ xWait 20 5 2 1 ++ [.core (.sync 20 21)] ++ (rPop 21 0 1).map .core)

example : (∃ s, XRun ⟨true, true⟩ 8 1 lateTr s) ∧ AtX lateTr 9 (.cell (.retNotify 30 false)) ∧
    AtX lateTr 10 (.cell (.callWait 20)) ∧ ¬ HB lateTr 9 10 ∧ AtX lateTr 15 (.cell (.retWait 20 .wait)) ∧
    At lateTr 16 (.invoke 21 .pop) ∧ At lateTr 18 (.ret 21 .popped) := by
  obtain ⟨s, hs⟩ := xTrace_exec .source _ (show (runXActs Orders.source CellOrders.source ⟨true, true⟩ 1 (XState.init 8 Nat)
    (xPushed ++ xNotify 30 false 0 0 ++ xWait 20 5 2 1 ++ [.core (.sync 20 21)] ++ (rPop 21 0 1).map .core)).isSome = true
    by decide +kernel) (by decide +kernel)
  refine ⟨⟨s, by decide, rfl, hs⟩, ?_, ?_, ?_, ?_, ?_, ?_⟩ <;> decide +kernel

/-- **C51** The same for the close of the channel: whenever `close_tx` is called, before or after the receiver has
registered, the receiver has been woken when no call is in progress. -/
theorem C51_close_wakes (h : XRun c w cap tr s) (hone : OneReceiver tr) (hq : CellQuiet tr)
    (hass : ∀ d n, ¬ AtX tr n (.cell (.assertFailed d))) {p n m : Nat} {a b : OpId} {v : Nat}
    (hp : AtX tr p (.cell (.retWait a .wait))) (hv : AtX tr m (.cell (.mk a v))) (hmp : m < p)
    (hlast : ∀ d q, p < q → ¬ AtX tr q (.cell (.retWait d .wait)))
    (hn : AtX tr n (.cell (.callNotify b true))) :
    ∃ q d, p < q ∧ AtX tr q (.cell (.wake d v)) := by
  obtain ⟨h0, h1⟩ := h.registered hone hp hv hmp
  obtain ⟨k, y, hk⟩ := hq.2 b true n hn
  obtain ⟨j, _, _, h2⟩ := h.inv.cell.signal_of_ret h.std hn hk
  exact h.woken hone hq hass hp hv hmp hlast h2 (h.minv.regOpen _ _ _ _ _ h2 h1)

def closeWakeActs : List (XAct Nat) := xWait 20 5 0 0 ++ xNotify 30 true 2 1

example : ∃ q d, 5 < q ∧ AtX (xTrace .source closeWakeActs) q (.cell (.wake d 5)) := by
  obtain ⟨s, hs⟩ := xTrace_exec .source closeWakeActs (by decide +kernel) (by decide +kernel)
  exact C51_close_wakes (m := 1) (n := 6) (a := 20) (b := 30) ⟨by decide, rfl, hs⟩ (oneReceiver_of (by decide +kernel))
    (cellQuiet_of (by decide +kernel)) (noAssert_of (by decide +kernel)) (by decide +kernel) (by decide +kernel) (by decide)
    (lastWait_of (by decide +kernel)) (by decide +kernel)

/-! ### Closing -/

/-- A sender pushes and closes; the receiver, which knows nothing of it, finds the cell closed and pops.  Another call of
`wait_with` knows of the close from elsewhere. -/
def closeActs : List (XAct Nat) :=
  xPushed ++ xNotify 30 true 0 0 ++ [.cell (.callWait 20) 0, .cell (.run 20) 2, .core (.sync 20 21)] ++
  (rPop 21 0 1).map .core ++ [.core (.sync 30 22), .cell (.callWait 22) 0, .cell (.run 22) 2]

def closeTr : List (REv Nat) := xTrace .source closeActs

theorem closeRun : ∃ s, XRun ⟨true, true⟩ 8 1 closeTr s := by
  obtain ⟨s, hs⟩ := xTrace_exec .source closeActs (by decide +kernel) (by decide +kernel)
  exact ⟨s, by decide, rfl, hs⟩

/-- `C51_element_race_free`. -/
example : At closeTr 4 (.commit 0 0 (some 10)) ∧ At closeTr 13 (.dequeue 21 0 (some 10)) ∧ HB closeTr 4 13 := by
  refine ⟨?_, ?_, ?_⟩ <;> decide +kernel

/-- **C51** `wait_with` returns `Closed` if it is called after `close_tx` has returned. -/
theorem C51_closed_known (h : XRun c w cap tr s) {n k q z : Nat} {a b : OpId} {y : Bool} {r : Cell.Res}
    (hn : AtX tr n (.cell (.callNotify b true))) (hk : AtX tr k (.cell (.retNotify b y)))
    (hq : AtX tr q (.cell (.callWait a))) (hkq : HB tr k q) (hz : AtX tr z (.cell (.retWait a r))) : r = .closed := by
  obtain ⟨j, _, h1, h2⟩ := h.inv.cell.signal_of_ret h.std hn hk
  have hb := h.inv.base.hb
  exact (h.inv.know.late a j q b h2 hq (hb.trans (hb.same h1 h2 hk rfl) hkq)).2 z r hz

/-- **C51** `wait_with` returns `Closed` only if `close_tx` was called, and then everything that happened before that call
has happened before the return. -/
theorem C51_closed_truthful (h : XRun c w cap tr s) {q : Nat} {a : OpId} (hq : AtX tr q (.cell (.retWait a .closed))) :
    ∃ n b, AtX tr n (.cell (.callNotify b true)) ∧ HB tr n q ∧ ∀ k, HB tr k n → HB tr k q := by
  obtain ⟨j, b, h1, h2⟩ := h.minv.closedRet q a hq
  obtain ⟨n, h3, h4⟩ := mem_cellTake (h.inv.cell.at h.std h1).1
  have hb := h.inv.base.hb
  have h5 := hb.trans (hb.same h3 h4 h1 rfl) h2
  exact ⟨n, b, h4, h5, fun k hk => hb.trans hk h5⟩

/-- **C51** Messages are not lost when the channel closes: the receiver is told that the channel is closed (at `p`) and
then pops (`d`, called at `i`), as in `poll_recv_ref`.  If the oldest element was pushed (its `Ref` dropped, at `k`) before
the senders closed the channel, the pop returns it, whatever stale values it may see. -/
theorem C51_closed_drains (h : XRun c w cap tr s) {p i j k l : Nat} {a b d : OpId} {y : Option V} {r : Ret}
    (hp : AtX tr p (.cell (.retWait a .closed)))
    (hi : At tr i (.invoke d .pop)) (hpi : HB tr p i) (hj : At tr j (.ret d r))
    (hd : ∀ n b' j' x', n < j → At tr n (.dequeue b' j' x') → b' ≠ d → HB tr n i)
    (hb : (resOps (evsOf tr))[nDeq (evsOf (tr.take i))]? = some b) (hk : At tr k (.commit b l y))
    (hc : ∀ e n, AtX tr n (.cell (.callNotify e true)) → HB tr k n) : r = .popped := by
  obtain ⟨n, e, h1, h2, h3⟩ := C51_closed_truthful h hp
  have hb0 := h.inv.base.hb
  exact popped_known h.facts h.inv.base.ktr hb0 hi hj hd hb hk (hb0.trans (h3 k (hc e n h1)) hpi)

/-- `C51_closed_known`, `C51_closed_truthful` and `C51_closed_drains`. -/
example : AtX closeTr 5 (.cell (.callNotify 30 true)) ∧ AtX closeTr 9 (.cell (.retNotify 30 false)) ∧
    AtX closeTr 15 (.cell (.callWait 22)) ∧ HB closeTr 9 15 ∧ AtX closeTr 16 (.cell (.retWait 22 .closed)) ∧
    AtX closeTr 11 (.cell (.retWait 20 .closed)) ∧ ¬ HB closeTr 5 10 ∧ HB closeTr 5 11 ∧ HB closeTr 4 5 ∧
    At closeTr 12 (.invoke 21 .pop) ∧ HB closeTr 11 12 ∧ At closeTr 14 (.ret 21 .popped) ∧
    (resOps (evsOf closeTr))[nDeq (evsOf (closeTr.take 12))]? = some 0 ∧ At closeTr 4 (.commit 0 0 (some 10)) := by
  refine ⟨?_, ?_, ?_, ?_, ?_, ?_, ?_, ?_, ?_, ?_, ?_, ?_, ?_, ?_⟩ <;> decide +kernel

/-! ### The orderings are needed

Each ordering of the cell that `CellSync` asks for is needed: with a weaker one in that place and those of the source
elsewhere, there are executions in which one of the properties above fails. -/

/-- If the first compare-and-swap of `wait_with` did not acquire, storing the waker could race with `notify`. -/
theorem C51_start_acquire_needed : ∃ (tr : List (REv Nat)) (s : XState 8 Nat),
    XExec Orders.source { CellOrders.source with startOk := .relaxed } ⟨true, true⟩ 8 1 tr s ∧
    AtX tr 3 (.cell (.accEnd 30)) ∧ AtX tr 7 (.cell (.accBegin 20)) ∧ ¬ HB tr 3 7 := by
  obtain ⟨s, hs⟩ := xTrace_exec { CellOrders.source with startOk := .relaxed } (xNotify 30 false 0 0 ++ xWait 20 5 2 0)
    (by decide +kernel) (by decide +kernel)
  exact ⟨_, s, hs, by decide +kernel, by decide +kernel, by decide +kernel⟩

/-- If the `fetch_and` of `notify` did not release, storing the waker could race with `notify`. -/
theorem C51_clear_release_needed : ∃ (tr : List (REv Nat)) (s : XState 8 Nat),
    XExec Orders.source { CellOrders.source with clear := .acquire } ⟨true, true⟩ 8 1 tr s ∧
    AtX tr 3 (.cell (.accEnd 30)) ∧ AtX tr 7 (.cell (.accBegin 20)) ∧ ¬ HB tr 3 7 := by
  obtain ⟨s, hs⟩ := xTrace_exec { CellOrders.source with clear := .acquire } (xNotify 30 false 0 0 ++ xWait 20 5 2 0)
    (by decide +kernel) (by decide +kernel)
  exact ⟨_, s, hs, by decide +kernel, by decide +kernel, by decide +kernel⟩

/-- If the `fetch_or` of `notify` did not acquire, taking the waker could race with `wait_with`, and the waker would
not be found: nobody is woken. -/
theorem C51_signal_acquire_needed : ∃ (tr : List (REv Nat)) (s : XState 8 Nat),
    XExec Orders.source { CellOrders.source with signal := .release } ⟨true, true⟩ 8 1 tr s ∧
    AtX tr 3 (.cell (.accEnd 20)) ∧ AtX tr 5 (.cell (.retWait 20 .wait)) ∧ AtX tr 8 (.cell (.accBegin 30)) ∧
    ¬ HB tr 3 8 ∧ AtX tr 10 (.cell (.retNotify 30 false)) := by
  obtain ⟨s, hs⟩ := xTrace_exec { CellOrders.source with signal := .release } (xWait 20 5 0 0 ++ xNotify 30 false 2 0)
    (by decide +kernel) (by decide +kernel)
  exact ⟨_, s, hs, by decide +kernel, by decide +kernel, by decide +kernel, by decide +kernel, by decide +kernel⟩

/-- The same if the second compare-and-swap of `wait_with` did not release. -/
theorem C51_unlock_release_needed : ∃ (tr : List (REv Nat)) (s : XState 8 Nat),
    XExec Orders.source { CellOrders.source with unlockOk := .acquire } ⟨true, true⟩ 8 1 tr s ∧
    AtX tr 3 (.cell (.accEnd 20)) ∧ AtX tr 5 (.cell (.retWait 20 .wait)) ∧ AtX tr 8 (.cell (.accBegin 30)) ∧
    ¬ HB tr 3 8 ∧ AtX tr 10 (.cell (.retNotify 30 false)) := by
  obtain ⟨s, hs⟩ := xTrace_exec { CellOrders.source with unlockOk := .acquire } (xWait 20 5 0 0 ++ xNotify 30 false 2 0)
    (by decide +kernel) (by decide +kernel)
  exact ⟨_, s, hs, by decide +kernel, by decide +kernel, by decide +kernel, by decide +kernel, by decide +kernel⟩

/-- If the `fetch_and` of `wait_with` did not release, taking the waker could race with a later `notify`. -/
theorem C51_reset_release_needed : ∃ (tr : List (REv Nat)) (s : XState 8 Nat),
    XExec Orders.source { CellOrders.source with reset := .acquire } ⟨true, true⟩ 8 1 tr s ∧
    AtX tr 8 (.cell (.accEnd 20)) ∧ AtX tr 13 (.cell (.accBegin 31)) ∧ ¬ HB tr 8 13 := by
  obtain ⟨s, hs⟩ := xTrace_exec { CellOrders.source with reset := .acquire } (xDuring ++ xNotify 31 false 3 0)
    (by decide +kernel) (by decide +kernel)
  exact ⟨_, s, hs, by decide +kernel, by decide +kernel, by decide +kernel⟩

/-- If the `fetch_or` of `notify` did not release, wakeups could be lost: a sender has pushed and notified, the receiver
has consumed the notification, registers again, finds the queue empty, and sleeps; nobody wakes it. -/
theorem C51_signal_release_needed : ∃ (tr : List (REv Nat)) (s : XState 8 Nat),
    XExec Orders.source { CellOrders.source with signal := .acquire } ⟨true, true⟩ 8 1 tr s ∧
    OneReceiver tr ∧ CellQuiet tr ∧ At tr 4 (.commit 0 0 (some 10)) ∧ AtX tr 9 (.cell (.callNotify 30 false)) ∧ HB tr 4 9 ∧
    AtX tr 17 (.cell (.mk 22 6)) ∧ AtX tr 21 (.cell (.retWait 22 .wait)) ∧ At tr 22 (.invoke 21 .pop) ∧ HB tr 21 22 ∧
    At tr 23 (.ret 21 .empty) ∧ ∀ q d, ¬ AtX tr q (.cell (.wake d 6)) := by
  obtain ⟨s, hs⟩ := xTrace_exec { CellOrders.source with signal := .acquire }
    (xPushed ++ xDuring ++ [.core (.sync 20 22)] ++ xWait 22 6 3 2 ++ [.core (.sync 22 21)] ++ xStalePop 21 1)
    (by decide +kernel) (by decide +kernel)
  refine ⟨_, s, hs, oneReceiver_of (by decide +kernel), cellQuiet_of (by decide +kernel), by decide +kernel, by decide +kernel,
    by decide +kernel, by decide +kernel, by decide +kernel, by decide +kernel, by decide +kernel, by decide +kernel, ?_⟩
  intro q d hq
  exact noWake_of (by decide +kernel) q d hq

/-- If the first compare-and-swap of `wait_with` did not acquire when it fails, the receiver could be told that the channel is
closed and then miss a message. -/
theorem C51_fail_acquire_needed : ∃ (tr : List (REv Nat)) (s : XState 8 Nat),
    XExec Orders.source { CellOrders.source with startFail := .relaxed } ⟨true, true⟩ 8 1 tr s ∧
    At tr 4 (.commit 0 0 (some 10)) ∧ AtX tr 5 (.cell (.callNotify 30 true)) ∧ HB tr 4 5 ∧
    AtX tr 11 (.cell (.retWait 20 .closed)) ∧ At tr 12 (.invoke 21 .pop) ∧ HB tr 11 12 ∧ At tr 13 (.ret 21 .empty) := by
  obtain ⟨s, hs⟩ := xTrace_exec { CellOrders.source with startFail := .relaxed }
    (xPushed ++ xNotify 30 true 0 0 ++ [.cell (.callWait 20) 0, .cell (.run 20) 2, .core (.sync 20 21)] ++ xStalePop 21 1)
    (by decide +kernel) (by decide +kernel)
  refine ⟨_, s, hs, ?_, ?_, ?_, ?_, ?_, ?_, ?_⟩ <;> decide +kernel

/-- The same if the `fetch_and` of `wait_with` did not acquire. -/
theorem C51_reset_acquire_needed : ∃ (tr : List (REv Nat)) (s : XState 8 Nat),
    XExec Orders.source { CellOrders.source with reset := .release } ⟨true, true⟩ 8 1 tr s ∧
    At tr 4 (.commit 0 0 (some 10)) ∧ AtX tr 14 (.cell (.callNotify 30 true)) ∧ HB tr 4 14 ∧
    AtX tr 18 (.cell (.retWait 20 .closed)) ∧ At tr 19 (.invoke 21 .pop) ∧ HB tr 18 19 ∧ At tr 20 (.ret 21 .empty) := by
  obtain ⟨s, hs⟩ := xTrace_exec { CellOrders.source with reset := .release }
    (xPushed ++ [.cell (.callWait 20) 0, .cell (.run 20) 0, .cell (.mk 20 5) 0, .cell (.run 20) 0, .cell (.run 20) 0,
      .cell (.callNotify 31 false) 0, .cell (.run 31) 1, .cell (.run 20) 2, .cell (.run 20) 0, .cell (.run 20) 1,
      .cell (.callNotify 30 true) 0, .cell (.run 30) 2, .cell (.run 20) 3, .cell (.run 20) 0, .cell (.run 20) 0,
      .core (.sync 20 21)] ++ xStalePop 21 1)
    (by decide +kernel) (by decide +kernel)
  refine ⟨_, s, hs, ?_, ?_, ?_, ?_, ?_, ?_, ?_⟩ <;> decide +kernel

end Thingbuf.RA
