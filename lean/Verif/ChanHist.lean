import Verif.ChanOwn

/-!
# The history of a channel

What the events so far say about the state of each user, and conversely.
-/

namespace Thingbuf.Chan

variable {w : Nat} {V W : Type} {c : Config W} {tr : Trace V W} {s : State w V W}

theorem api_of_core (evs : List (Event V)) (es : List (Api W)) : apiOf (evs.map .core ++ es.map .api : Trace V W) = es := by simp
theorem api_of_cell (evs : List (Cell.Event W)) (es : List (Api W)) : apiOf (evs.map .cell ++ es.map .api : Trace V W) = es := by simp
theorem api_of_queue (evs : List (Queue.Event W)) (es : List (Api W)) : apiOf (evs.map .queue ++ es.map .api : Trace V W) = es := by simp

/-- Induction over executions, with the steps as in `Tr`. -/
theorem ExecM.ind {m : Bool} {P : Trace V W → State w V W → Prop} (init : P [] (State.init w V W))
    (stale : ∀ tr s t p, ExecM m c tr s → P tr s → Queue.Stale s.queue t p → P tr { s with queue := s.queue.goto t p })
    (mem : ∀ tr s core cell, ExecM m c tr s → P tr s → core.pc = s.core.pc → cell.pc = s.cell.pc →
      P tr { s with core := core, cell := cell })
    (api : ∀ tr s t e, ExecM m c tr s → P tr s → ApiMove c s t e → P (tr ++ [.api e]) t)
    (core : ∀ tr s act s1 evs r t es, ExecM m c tr s → P tr s → Thingbuf.step c.cap s.core act = some (s1, evs) →
      coreRet evs = r → CoreMove c s act r t es → P (tr ++ (evs.map .core ++ es.map .api)) { t with core := s1 })
    (cell : ∀ tr s act s1 evs t es, ExecM m c tr s → P tr s → Cell.step c.cell s.cell act = some (s1, evs) →
      CellMove c s act evs t es → P (tr ++ (evs.map .cell ++ es.map .api)) { t with cell := s1 })
    (queue : ∀ tr s act s1 evs t es, ExecM m c tr s → P tr s → Queue.step c.queue s.queue act = some (s1, evs) →
      QueueMove c s act evs t es → P (tr ++ (evs.map .queue ++ es.map .api)) { t with queue := s1 })
    (tr : Trace V W) (s : State w V W) (h : ExecM m c tr s) : P tr s := by
  induction h with
  | init => exact init
  | stale _ h hs ih => exact stale _ _ _ _ h ih hs
  | mem _ _ _ h h1 h2 ih => exact mem _ _ _ _ h ih h1 h2
  | step h hs ih =>
    cases step_tr hs with
    | api hm => exact api _ _ _ _ h ih hm
    | core h1 hm => exact core _ _ _ _ _ _ _ _ h ih h1 rfl hm
    | cell h1 hm => exact cell _ _ _ _ _ _ _ h ih h1 hm
    | queue h1 hm => exact queue _ _ _ _ _ _ _ h ih h1 hm

/-- Induction over executions in which every access reads the last value. -/
theorem Exec.ind {P : Trace V W → State w V W → Prop} (init : P [] (State.init w V W))
    (api : ∀ tr s t e, Exec c tr s → P tr s → ApiMove c s t e → P (tr ++ [.api e]) t)
    (core : ∀ tr s act s1 evs r t es, Exec c tr s → P tr s → Thingbuf.step c.cap s.core act = some (s1, evs) →
      coreRet evs = r → CoreMove c s act r t es → P (tr ++ (evs.map .core ++ es.map .api)) { t with core := s1 })
    (cell : ∀ tr s act s1 evs t es, Exec c tr s → P tr s → Cell.step c.cell s.cell act = some (s1, evs) →
      CellMove c s act evs t es → P (tr ++ (evs.map .cell ++ es.map .api)) { t with cell := s1 })
    (queue : ∀ tr s act s1 evs t es, Exec c tr s → P tr s → Queue.step c.queue s.queue act = some (s1, evs) →
      QueueMove c s act evs t es → P (tr ++ (evs.map .queue ++ es.map .api)) { t with queue := s1 })
    (tr : Trace V W) (s : State w V W) (h : Exec c tr s) : P tr s := by
  induction h with
  | init => exact init
  | stale hm => cases hm
  | mem _ _ hm => cases hm
  | step h hs ih =>
    cases step_tr hs with
    | api hm => exact api _ _ _ _ h ih hm
    | core h1 hm => exact core _ _ _ _ _ _ _ _ h ih h1 rfl hm
    | cell h1 hm => exact cell _ _ _ _ _ _ _ h ih h1 hm
    | queue h1 hm => exact queue _ _ _ _ _ _ _ h ih h1 hm

/-- Only a blocking send times out. -/
theorem ExecM.no_timeout {m : Bool} (h : ExecM m c tr s) (hb : c.blocking = false) (k : Nat) : .api (.retSend k .timeout) ∉ tr := by
  refine ExecM.ind (P := fun tr s => .api (.retSend k .timeout) ∉ tr) ?_ (fun _ _ _ _ _ ih _ => ih) (fun _ _ _ _ _ ih _ _ => ih) ?_ ?_ ?_ ?_ tr s h
  · simp
  · intro tr s t e he ih hm
    cases hm <;> simp [ih]
  · intro tr s act s1 evs r t es he ih h1 hr hm
    cases hm <;> simp [ih]
  · intro tr s act s1 evs t es he ih h1 hm
    cases hm <;> simp [ih]
  · intro tr s act s1 evs t es he ih h1 hm
    cases hm
    case timeout => simp_all
    all_goals simp [ih]

/-! ### The life of a send call -/

/-- The send call whose life the event belongs to. -/
def callOf : Api W → Option Nat
  | .callSend k _ _ | .retSend k _ | .cancel k | .cancelled k | .dropSend k | .dropSendEnd k | .forgetSend k => some k
  | _ => none

def life (k : Nat) (l : List (Api W)) : List (Api W) := l.filter fun e => callOf e == some k

theorem life_append (k : Nat) (l l' : List (Api W)) : life k (l ++ l') = life k l ++ life k l' := List.filter_append ..

/-- The life of call `k` up to control state `p`. -/
def LifeOk (k : Nat) : SPC → List (Api W) → Prop
  | .off, l => l = []
  | .dropping, l => ∃ h wt, l = [.callSend k h wt, .cancel k]
  | .held a, l => ∃ h wt, l = [.callSend k h wt, .retSend k (.ok a)]
  | .toNotify, l | .notifying _, l => ∃ h wt a, l = [.callSend k h wt, .retSend k (.ok a), .dropSend k]
  | .forgotten a, l => ∃ h wt, l = [.callSend k h wt, .retSend k (.ok a), .forgetSend k]
  | .done, l => ∃ h wt, (∃ r, (∀ a, r ≠ .ok a) ∧ l = [.callSend k h wt, .retSend k r]) ∨ l = [.callSend k h wt, .cancel k, .cancelled k] ∨
      ∃ a, l = [.callSend k h wt, .retSend k (.ok a), .dropSend k, .dropSendEnd k]
  | _, l => ∃ h wt, l = [.callSend k h wt]

theorem LifeOk.ret_uniq {k : Nat} {p : SPC} {l : List (Api W)} (h : LifeOk k p l) {r r' : SendRes} (h1 : .retSend k r ∈ l) (h2 : .retSend k r' ∈ l) :
    r = r' := by
  cases p <;> simp only [LifeOk] at h
  case off => subst h; cases h1
  case done =>
    obtain ⟨_, _, ⟨x, hx, h⟩ | h | ⟨a, h⟩⟩ := h <;> subst h <;> simp at h1 h2 <;> rw [h1, h2]
  case toNotify | notifying => obtain ⟨_, _, _, h⟩ := h; subst h; simp at h1 h2; rw [h1, h2]
  all_goals (obtain ⟨_, _, h⟩ := h; subst h; simp at h1 h2; try rw [h1, h2])

def LivesOk (s : State w V W) (tr : Trace V W) : Prop := ∀ k, LifeOk k (s.snd k) (life k (apiOf tr))

theorem LivesOk.upd {t : State w V W} {evs : Trace V W} {es : List (Api W)} (h : LivesOk s tr) (k : Nat) {p : SPC}
    (he : apiOf evs = es) (hes : ∀ e ∈ es, callOf e = some k ∨ callOf e = none) (ht : t.snd = Thingbuf.upd s.snd k p)
    (hp : ∀ l, LifeOk k (s.snd k) l → LifeOk k p (l ++ life k es)) : LivesOk t (tr ++ evs) := by
  intro j
  rw [apiOf_append, he, life_append, ht, upd_apply]
  split
  · rename_i e; subst e; exact hp _ (h j)
  · rename_i e
    rw [show life j es = [] from ?_, List.append_nil]
    · exact h j
    · simp only [life, List.filter_eq_nil_iff]
      intro x hx
      rcases hes x hx with hc | hc <;> rw [hc] <;> simp
      exact fun e' => e e'.symm

theorem LivesOk.same {t : State w V W} {evs : Trace V W} {es : List (Api W)} (h : LivesOk s tr)
    (he : apiOf evs = es) (hes : ∀ e ∈ es, callOf e = none) (ht : t.snd = s.snd) : LivesOk t (tr ++ evs) := by
  intro j
  rw [apiOf_append, he, life_append, ht]
  rw [show life j es = [] from ?_, List.append_nil]
  · exact h j
  · simp only [life, List.filter_eq_nil_iff]
    intro x hx
    rw [hes x hx]; simp

theorem LivesOk.core {t : State w V W} {act} {r} {es : List (Api W)} {evs : Trace V W} (h : LivesOk s tr) (he : apiOf evs = es)
    (hm : CoreMove c s act r t es) : LivesOk t (tr ++ evs) := by
  cases hm with
  | send k x wait a r hp =>
    refine h.upd k he (by simp [callOf]) rfl fun l hl => ?_
    rw [hp] at hl; cases hl
    simp [LifeOk, life, callOf]
  | pushOk k a att i hp =>
    refine h.upd k he (by simp [callOf]) rfl fun l hl => ?_
    rw [hp] at hl; obtain ⟨x, wt, rfl⟩ := hl
    simp [LifeOk, life, callOf]
  | pushClosed k a att i hp =>
    refine h.upd k he (by simp [callOf]) rfl fun l hl => ?_
    rw [hp] at hl; obtain ⟨x, wt, rfl⟩ := hl
    simp [LifeOk, life, callOf]
  | fullOnly k a i hp =>
    refine h.upd k he (by simp [callOf]) rfl fun l hl => ?_
    rw [hp] at hl; obtain ⟨x, wt, rfl⟩ := hl
    simp [LifeOk, life, callOf]
  | fullStart k a i hp =>
    refine h.upd k he (by simp) rfl fun l hl => ?_
    rw [hp] at hl; simpa [LifeOk, life] using hl
  | fullBlocking k a i hp =>
    refine h.upd k he (by simp) rfl fun l hl => ?_
    rw [hp] at hl; simpa [LifeOk, life] using hl
  | fullAsync k a i hp =>
    refine h.upd k he (by simp) rfl fun l hl => ?_
    rw [hp] at hl; simpa [LifeOk, life] using hl
  | pushPanic k a att i r hp =>
    refine h.upd k he (by simp [callOf]) rfl fun l hl => ?_
    rw [hp] at hl; obtain ⟨x, wt, rfl⟩ := hl
    simp [LifeOk, life, callOf]
  | retry k att a r hp =>
    refine h.upd k he (by simp [callOf]) rfl fun l hl => ?_
    rw [hp] at hl; simpa [LifeOk, life, callOf] using hl
  | dropSend k a r hp =>
    refine h.upd k he (by simp [callOf]) rfl fun l hl => ?_
    rw [hp] at hl; obtain ⟨x, wt, rfl⟩ := hl
    simp [LifeOk, life, callOf]
  | _ => exact h.same he (by simp [callOf]) rfl

theorem LivesOk.cell {t : State w V W} {act} {r} {es : List (Api W)} {evs : Trace V W} (h : LivesOk s tr) (he : apiOf evs = es)
    (hm : CellMove c s act r t es) : LivesOk t (tr ++ evs) := by
  cases hm with
  | notify k o evs hp =>
    refine h.upd k he (by simp) rfl fun l hl => ?_
    rw [hp] at hl; simpa [LifeOk, life] using hl
  | notifyEnd k o evs hp =>
    refine h.upd k he (by simp [callOf]) rfl fun l hl => ?_
    rw [hp] at hl; obtain ⟨x, wt, a, rfl⟩ := hl
    simp [LifeOk, life, callOf]
  | _ => exact h.same he (by simp [callOf]) rfl

theorem LivesOk.queue {t : State w V W} {act} {r} {es : List (Api W)} {evs : Trace V W} (h : LivesOk s tr) (he : apiOf evs = es)
    (hm : QueueMove c s act r t es) : LivesOk t (tr ++ evs) := by
  cases hm with
  | start k v evs hp | startNotified k _ evs hp | contNotified k _ evs hp =>
    refine h.upd k he (by simp) rfl fun l hl => ?_
    rw [hp] at hl; simpa [LifeOk, life] using hl
  | cont k v evs hp =>
    refine h.upd k he (by simp) rfl fun l hl => ?_
    rcases hp with hp | hp <;> rw [hp] at hl <;> simpa [LifeOk, life] using hl
  | startWait k _ evs hp | contWait k _ evs hp =>
    refine h.upd k he (by simp [callOf]) rfl fun l hl => ?_
    rw [hp] at hl; simpa [LifeOk, life, callOf] using hl
  | startClosed k _ evs hp | startPanic k _ evs _ hp | contClosed k _ evs hp | contPanic k _ evs _ hp | timeout k evs hp =>
    refine h.upd k he (by simp [callOf]) rfl fun l hl => ?_
    rw [hp] at hl; obtain ⟨x, wt, rfl⟩ := hl
    simp [LifeOk, life, callOf]
  | cancel k evs hp =>
    refine h.upd k he (by simp [callOf]) rfl fun l hl => ?_
    rw [hp] at hl; obtain ⟨x, wt, rfl⟩ := hl
    simp [LifeOk, life, callOf]
  | dropEnd k _ evs _ hp =>
    refine h.upd k he (by simp [callOf]) rfl fun l hl => ?_
    rw [hp] at hl; obtain ⟨x, wt, rfl⟩ := hl
    simp [LifeOk, life, callOf]
  | _ => exact h.same he (by simp [callOf]) rfl

theorem LivesOk.api {t : State w V W} {e : Api W} (h : LivesOk s tr) (hm : ApiMove c s t e) : LivesOk t (tr ++ [.api e]) := by
  cases hm with
  | forgetSend k a hp =>
    refine h.upd k rfl (by simp [callOf]) rfl fun l hl => ?_
    rw [hp] at hl; obtain ⟨x, wt, rfl⟩ := hl
    simp [LifeOk, life, callOf]
  | _ => exact h.same rfl (by simp [callOf]) rfl

theorem ExecM.lives {m : Bool} (h : ExecM m c tr s) : LivesOk s tr := by
  refine ExecM.ind (P := fun tr s => LivesOk s tr) ?_ (fun _ _ _ _ _ ih _ => ih) (fun _ _ _ _ _ ih _ _ => ih) ?_ ?_ ?_ ?_ tr s h
  · intro k; rfl
  · exact fun _ _ _ _ _ ih hm => ih.api hm
  · exact fun tr s act s1 evs r t es _ ih _ _ hm k => ih.core (api_of_core evs es) hm k
  · exact fun tr s act s1 evs t es _ ih _ hm k => ih.cell (api_of_cell evs es) hm k
  · exact fun tr s act s1 evs t es _ ih _ hm k => ih.queue (api_of_queue evs es) hm k

end Thingbuf.Chan
