import Verif.QueueSolo
import Verif.QueueOrder

/-!
# The wait queue: calls made while somebody else is in the middle of a step

Helper lemmas for `QueueReenterProps`.
-/

namespace Thingbuf.Queue

variable {W : Type} {c : Config W}

/-- The thread of control that an action is a step of. -/
def Act.by : Act W → Tid
  | .start n _ | .cont n _ | .drop n | .giveUp n | .node n _ => .node n
  | .notify o | .close o | .op o _ => .op o

@[simp] theorem Tid.act_by (t : Tid) : (t.act : Act W).by = t := by cases t <;> rfl

/-- The call `o` is calling the waker `v` of node `n`: that is its next step. -/
def Waking (c : Config W) (s : State W) (o n : Nat) (v : W) : Prop :=
  ∃ s' evs, Queue.step c s (.op o false) = some (s', evs) ∧ .wake o n v ∈ evs

/-- `continue_wait` of node `n` is replacing the waker of node `n` (or comparing it with the new one): that is its next step. -/
def Replacing (c : Config W) (s : State W) (n : Nat) : Prop :=
  ∃ s' evs v, Queue.step c s (.node n false) = some (s', evs) ∧ .upd n v ∈ evs

theorem mem_touch_append {e : Event W} {t : Tid} {ns : List Nat} {l : Trace W} (he : ∀ u m, e ≠ .touch u m) :
    e ∈ ns.map (Event.touch t) ++ l ↔ e ∈ l := by
  rw [List.mem_append]
  refine ⟨fun h => h.resolve_left fun h => ?_, .inr⟩
  obtain ⟨m, _, hm⟩ := List.mem_map.1 h
  exact he t m hm.symm

theorem ExecM.wake_pc {tr : Trace W} {s s' : State W} {act : Act W} {evs : Trace W} (h : Exec c tr s) (hs : Queue.step c s act = some (s', evs))
    {o n : Nat} {v : W} (hm : .wake o n v ∈ evs) : s.pc (.op o) = .nWake n v ∨ s.pc (.op o) = .cWake n v := by
  obtain ⟨t, p, st, lk, l, b, rx, -, -, hg⟩ := h.good hs
  clear hs
  cases hg <;> simp_all

theorem ExecM.waking_pc {tr : Trace W} {s : State W} (h : Exec c tr s) {o n : Nat} {v : W} (hw : Waking c s o n v) :
    s.pc (.op o) = .nWake n v ∨ s.pc (.op o) = .cWake n v := by
  obtain ⟨s', evs, hs, hm⟩ := hw
  obtain ⟨t, p, st, lk, l, b, rx, -, -, hg⟩ := h.good hs
  clear hs
  cases hg <;> simp_all

theorem ExecM.replacing_pc {tr : Trace W} {s : State W} (h : Exec c tr s) {n : Nat} (hw : Replacing c s n) :
    ∃ v, s.pc (.node n) = .contUpd v := by
  obtain ⟨s', evs, v, hs, hm⟩ := hw
  obtain ⟨t, p, st, lk, l, b, rx, -, -, hg⟩ := h.good hs
  clear hs
  cases hg <;> simp_all

theorem waking_of_pc {s : State W} {o n : Nat} {v : W} (h : s.pc (.op o) = .nWake n v ∨ s.pc (.op o) = .cWake n v) : Waking c s o n v := by
  rcases h with h | h
  · exact ⟨_, _, by simp only [Queue.step, opStep, h]; rfl, by simp⟩
  · exact ⟨_, _, by simp only [Queue.step, opStep, h]; rfl, by simp⟩

theorem step_by {s s' : State W} {a : Act W} {evs : Trace W} (hs : Queue.step c s a = some (s', evs)) {u : Tid} (hu : a.by ≠ u) :
    s'.pc u = s.pc u := by
  have hu' : u ≠ a.by := fun e => hu e.symm
  have key : ∀ {x : Out W} {y : State W × Trace W}, some x = some y → x.1.pc u = s.pc u → y.1.pc u = s.pc u := by
    intro x y h1 h2; cases h1; exact h2
  cases a <;> simp only [Act.by] at hu' <;> simp only [Queue.step] at hs
  case start | cont => 
    split at hs
    · split at hs
      · exact key hs (by simp [State.goto, hu'])
      · cases hs
    · cases hs
  case drop =>
    split at hs
    · exact key hs (by simp [State.goto, hu'])
    · exact key hs (by simp [State.goto, hu'])
    · cases hs
  case giveUp =>
    split at hs
    · exact key hs (by simp [State.goto, hu'])
    · cases hs
  case notify | close =>
    split at hs
    · split at hs
      · cases hs
      · exact key hs (by simp [State.goto, hu'])
    · cases hs
  case node n spur =>
    unfold nodeStep at hs
    split at hs
    all_goals first
      | (cases hs; done)
      | (unfold acquire at hs
         split at hs
         · exact key hs (by simp [State.goto, hu'])
         · cases hs)
      | skip
    all_goals refine key hs ?_
    all_goals first
      | (simp [State.goto, State.unlock, hu']; done)
      | (simp only [startCas, startLoop, startSet, startEnq, contLoad, contReload, contUpd, remCheck, remList, remCas]
         repeat' split
         all_goals simp [State.goto, State.unlock, fail, hu'])
  case op o spur =>
    unfold opStep at hs
    split at hs
    all_goals first
      | (cases hs; done)
      | (unfold acquire at hs
         split at hs
         · exact key hs (by simp [State.goto, hu'])
         · cases hs)
      | skip
    all_goals refine key hs ?_
    all_goals first
      | (simp [State.goto, State.endNotify, State.unlock, hu']; done)
      | (simp only [nLoop, nMatch, nStore, nUnlock, cLoop]
         repeat' split
         all_goals simp [State.goto, State.endNotify, State.unlock, fail, hu'])

theorem ExecM.wake_by {tr : Trace W} {s s' : State W} {act : Act W} {evs : Trace W} (h : Exec c tr s) (hs : Queue.step c s act = some (s', evs))
    {o n : Nat} {v : W} (hm : .wake o n v ∈ evs) : act.by = .op o := by
  apply Classical.byContradiction
  intro hne
  have h1 := step_by hs hne
  obtain ⟨t, p, st, lk, l, b, rx, he, -, hg⟩ := h.good hs
  rw [he] at h1
  clear hs he
  cases hg <;> simp [State.after] at hm h1 <;> simp_all

theorem runActs_by {s s' : State W} {as : List (Act W)} {evs : Trace W} (hs : runActs c s as = some (s', evs)) {u : Tid}
    (hu : ∀ a ∈ as, a.by ≠ u) : s'.pc u = s.pc u := by
  induction as generalizing s evs with
  | nil => simp only [runActs, Option.some.injEq, Prod.mk.injEq] at hs; rw [hs.1]
  | cons a as ih =>
    simp only [runActs, Option.bind_eq_bind, Option.bind_eq_some_iff, Option.pure_def, Option.some.injEq, Prod.mk.injEq] at hs
    obtain ⟨⟨s1, e1⟩, h1, ⟨s2, e2⟩, h2, rfl, rfl⟩ := hs
    rw [ih h2 fun b hb => hu b (by simp [hb]), step_by h1 (hu a (by simp))]

/-- A call can be brought to its end by the steps of one other call at most, and not of one that does not hold the lock. -/
theorem ExecM.canEndWithout {tr : Trace W} {s : State W} (h : Exec c tr s) {t x : Tid} (hb : (s.pc t).busy = true) (hx : (s.pc x).crit = false) (hne : t ≠ x) :
    ∃ u m n s' evs, (s.pc u).busy = true ∧ u ≠ x ∧ m + n ≤ 4 * (queueOf tr).length + 20 ∧
      runActs c s (List.replicate m u.act ++ List.replicate n t.act) = some (s', evs) ∧ (s'.pc t).busy = false := by
  have hr := fun (u : Tid) => PC.rank_le s.st (queueOf tr).length (s.pc u)
  cases hlk : s.lock with
  | none =>
    obtain ⟨n, s1, e1, hn, h1, hb1, -⟩ := h.runSolo (t := t) _ (.inl hlk) hb (hr t)
    exact ⟨t, 0, n, s1, e1, hb, hne, by omega, by simpa using h1, hb1⟩
  | some u =>
    have hu0 := (h.inv.lockC u).1 hlk
    have hux : u ≠ x := fun e => by rw [e, hx] at hu0; cases hu0
    have hu := PC.busy_of_crit hu0
    obtain ⟨m, s1, e1, hm, h1, hb1, hl1, ho1, hq1⟩ := h.runSolo (t := u) _ (.inr hlk) hu (hr u)
    by_cases htu : t = u
    · subst htu
      exact ⟨t, m, 0, s1, e1, hb, hne, by omega, by simpa using h1, hb1⟩
    · have h' := h.of_runActs h1
      obtain ⟨n, s2, e2, hn, h2, hb2, -⟩ := h'.runSolo (t := t) _ (.inl hl1) (by rw [ho1 t htu]; exact hb) (PC.rank_le ..)
      exact ⟨u, m, n, s2, e1 ++ e2, hu, hux, by omega, runActs_append h1 h2, hb2⟩

/-- While `x` holds the lock and takes no step, a waiting node stays where it is, and no call of its owner ends. -/
theorem ExecM.stuck_step {tr : Trace W} {s s' : State W} (h : Exec c tr s) {x : Tid} (hx : (s.pc x).crit = true) {a : Act W} {evs : Trace W}
    (ha : a.by ≠ x) (hs : Queue.step c s a = some (s', evs)) {n : Nat} (hn : n ∈ queueOf tr) (hnx : Tid.node n ≠ x) :
    n ∈ queueOf (tr ++ evs) ∧ ((s.pc (.node n)).busy = true → (s'.pc (.node n)).busy = true) ∧
      ((.callDrop n ∈ evs ∨ ∃ v, .callCont n v ∈ evs) → (s'.pc (.node n)).busy = true) := by
  have hby : ∀ u, u ≠ a.by → s'.pc u = s.pc u := fun u hu => step_by hs fun e => hu e.symm
  have hlk := (h.inv.lockC x).2 hx
  have hno : ∀ t, t ≠ x → (s.pc t).crit = false := fun t ht => by
    cases hc : (s.pc t).crit with
    | false => rfl
    | true =>
      have := (h.inv.lockC t).2 hc
      rw [hlk] at this
      exact absurd (Option.some.inj this).symm ht
  have hnd := h.inv.node n
  obtain ⟨t, p, st, lk, l, b, rx, he, -, hg⟩ := h.good hs
  have hq : queueOf (tr ++ evs) = evs.foldl qstep (queueOf tr) := by simp [queueOf]
  rw [hq]
  by_cases htx : t = x
  · subst htx
    have h1 := hby t fun e => ha e.symm
    rw [he] at h1 ⊢
    simp only [State.after, if_true, if_neg hnx] at h1 ⊢
    clear hs he hby hq hno
    cases hg <;> simp_all [PC.crit]
  · have hct := hno t htx
    rw [he]
    simp only [State.after]
    clear hs he hby hq hno
    by_cases hnt : Tid.node n = t
    · subst hnt
      clear htx
      simp only [if_true]
      cases hg <;> rename_i hp <;> first
        | (rw [hp] at hct hnd; simp_all [PC.crit, PC.busy, qstep, NodeOk]; done)
        | (rename_i hp _; rw [hp] at hct hnd; simp_all [PC.crit, PC.busy, qstep, NodeOk]; done)
        | (rename_i hp _ _; rw [hp] at hct hnd; simp_all [PC.crit, PC.busy, qstep, NodeOk]; done)
        | exact absurd hn hp
        | (clear hx; simp_all [PC.crit, PC.busy, qstep])
    · simp only [if_neg hnt]
      have hnc : evs.foldl qstep (queueOf tr) = queueOf tr ∧ ¬ (.callDrop n ∈ evs ∨ ∃ v, .callCont n v ∈ evs) := by
        clear hnd hx
        cases hg <;> simp_all [PC.crit, qstep]
      rw [hnc.1]
      exact ⟨hn, id, fun h => absurd h hnc.2⟩

/-- The same for a whole run. -/
theorem ExecM.stuck {x : Tid} {n : Nat} (hnx : Tid.node n ≠ x) {as : List (Act W)} : ∀ {tr : Trace W} {s s' : State W} {evs : Trace W}, Exec c tr s →
    (s.pc x).crit = true → (∀ a ∈ as, a.by ≠ x) → runActs c s as = some (s', evs) → n ∈ queueOf tr →
    n ∈ queueOf (tr ++ evs) ∧ ((s.pc (.node n)).busy = true → (s'.pc (.node n)).busy = true) ∧
      ((.callDrop n ∈ evs ∨ ∃ v, .callCont n v ∈ evs) → (s'.pc (.node n)).busy = true) := by
  induction as with
  | nil =>
    intro tr s s' evs h hx ha hr hn
    simp only [runActs, Option.some.injEq, Prod.mk.injEq] at hr
    obtain ⟨rfl, rfl⟩ := hr
    simpa using hn
  | cons a as ih =>
    intro tr s s' evs h hx ha hr hn
    simp only [runActs, Option.bind_eq_bind, Option.bind_eq_some_iff, Option.pure_def, Option.some.injEq, Prod.mk.injEq] at hr
    obtain ⟨⟨s1, e1⟩, h1, ⟨s2, e2⟩, h2, rfl, rfl⟩ := hr
    obtain ⟨q1, b1, c1⟩ := h.stuck_step hx (ha a (by simp)) h1 hn hnx
    obtain ⟨q2, b2, c2⟩ := ih (h.step h1) (by rw [step_by h1 (ha a (by simp))]; exact hx) (fun b hb => ha b (by simp [hb])) h2 q1
    rw [← List.append_assoc]
    refine ⟨q2, fun hb => b2 (b1 hb), fun hc => ?_⟩
    by_cases h3 : .callDrop n ∈ e1 ∨ ∃ v, .callCont n v ∈ e1
    · exact b2 (c1 h3)
    · refine c2 ?_
      rcases hc with hc | ⟨v, hc⟩ <;> rcases List.mem_append.1 hc with hc | hc
      · exact absurd (.inl hc) h3
      · exact .inl hc
      · exact absurd (.inr ⟨v, hc⟩) h3
      · exact .inr ⟨v, hc⟩

theorem ExecM.closed {tr : Trace W} {s : State W} (h : Exec c tr s) {o n : Nat} {v : W} (hp : s.pc (.op o) = .cWake n v) : Event.callClose o ∈ tr := by
  have ho := h.opHist o
  rw [hp] at ho
  rw [← mem_opEvs (o := o) rfl]
  simp only [OpHist] at ho
  obtain ⟨l, ho⟩ := ho
  rw [ho]
  simp

end Thingbuf.Queue
