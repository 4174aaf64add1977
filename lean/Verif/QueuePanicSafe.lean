import Verif.QueuePanic
import Verif.QueueSolo

/-!
# Wakers that panic: what holds whatever panics

Helper lemmas for `QueuePanicProps`.
-/

namespace Thingbuf.Queue

variable {W W' : Type} {c : Config (Wk W)}

/-- The events other than panics. Scaffolding of the model, no counterpart in the source. -/
def evsOf (tr : PTrace W) : Trace (Wk W) := tr.filterMap fun e => match e with | .ev e => some e | .panic _ => none

/-- Effect of an event on whether `t` is in a call: as `cstep`, and a panic ends the call. -/
def pcstep (t : Tid) (b : Bool) : PEv W → Bool
  | .ev e => cstep t b e
  | .panic u => if t = u then false else b

/-- Is `t` in a call that has neither returned nor panicked? -/
def pinCall (tr : PTrace W) (t : Tid) : Bool := tr.foldl (pcstep t) false

@[simp] theorem evsOf_append (a b : PTrace W) : evsOf (a ++ b) = evsOf a ++ evsOf b := by simp [evsOf]
@[simp] theorem evsOf_ev (t : Trace (Wk W)) : evsOf (t.map .ev) = t := by
  induction t with
  | nil => rfl
  | cons e t ih => simpa [evsOf] using ih

theorem pcstep_ev (t : Tid) (b : Bool) (l : Trace (Wk W)) : (l.map PEv.ev).foldl (pcstep t) b = l.foldl (cstep t) b := by
  induction l generalizing b with
  | nil => rfl
  | cons e l ih => simpa [pcstep] using ih _

theorem Like.queue {p : PTrace W} {t : Trace (Wk W)} (h : Like p t) (q : List Nat) : t.foldl qstep q = (evsOf p).foldl qstep q := by
  induction h generalizing q with
  | nil => rfl
  | @cons x p es t h1 h2 ih =>
    rw [List.foldl_append, ih]
    cases h1 <;> simp [evsOf, qstep]

theorem Like.inCall {p : PTrace W} {t : Trace (Wk W)} (h : Like p t) (u : Tid) (b : Bool) :
    t.foldl (cstep u) b = p.foldl (pcstep u) b := by
  induction h generalizing b with
  | nil => rfl
  | @cons x p es t h1 h2 ih =>
    rw [List.foldl_append, ih, List.foldl_cons]
    cases h1 <;> simp [pcstep, cstep]

/-- A step is one of the queue without panics (the wakers whose clone panics passing for the ones in place), or a panic in
`start_wait` or `close`. -/
theorem pstep_cases {s s' : State (Wk W)} {q : List Nat} {act : Act (Wk W)} {evs : PTrace W} (hi : SInv s q)
    (h : pstep c s act = some (s', evs)) :
    (∃ evs', Queue.step c.keep s act = some (s', evs') ∧ Like evs evs') ∨
    (∃ n v, s.pc (.node n) = .startSet v ∧ (s', evs) = startPanic s n) ∨
    ∃ o n v, s.pc (.op o) = .cWake n v ∧ (s', evs) = closePanic s o n v := by
  simp only [pstep] at h
  split at h
  · rename_i r hp
    cases h
    rcases panics_like hi hp with ⟨n, v, hpc, -, h1⟩ | ⟨o, n, v, hpc, -, h1⟩ | h1
    · exact .inr (.inl ⟨n, v, hpc, h1⟩)
    · exact .inr (.inr ⟨o, n, v, hpc, h1⟩)
    · exact .inl h1
  · rename_i hp
    rw [← step_keep hp] at h
    cases h1 : Queue.step c.keep s act with
    | none => rw [h1] at h; cases h
    | some r => rw [h1] at h; cases h; exact .inl ⟨r.2, rfl, Like.ev _⟩

/-- A thread leaves its call and releases the lock; nothing else changes. -/
theorem SInv.leave {s : State W'} {q : List Nat} (h : SInv s q) {t : Tid} {p : PC W'} (hc : (s.pc t).crit = true)
    (h1 : p.crit = false) (h2 : LocalSt p s.st) (h3 : p.inClose = true → (s.pc t).inClose = true) (h4 : p.inNotify = false)
    (h5 : ∀ n, t = .node n → NodeOk p (s.list.node n) (n ∈ q)) : SInv (s.goto t p).unlock q := by
  refine ⟨?_, ?_, ?_, h.rx, ?_, h.rxB, h.rep, ?_, h.full⟩
  · intro u
    simp only [State.unlock, State.goto]
    split
    · simp [h1]
    · rename_i hu
      exact ⟨fun h6 => (by cases h6), fun h6 => absurd (h.excl hc h6).symm hu⟩
  · intro u
    simp only [State.unlock, State.goto]
    split
    · exact h2
    · exact h.loc u
  · intro u
    simp only [State.unlock, State.goto]
    split
    · exact fun h6 => h.clos t (h3 h6)
    · exact h.clos u
  · intro u
    simp only [State.unlock, State.goto]
    split
    · rw [h4]; intro h6; cases h6
    · exact h.borrow u
  · intro n
    simp only [State.unlock, State.goto]
    split
    · rename_i hn; exact h5 n hn.symm
    · exact h.node n

theorem SInv.pstep {s s' : State (Wk W)} {q : List Nat} {act : Act (Wk W)} {evs : PTrace W} (hi : SInv s q)
    (h : pstep c s act = some (s', evs)) : SInv s' ((evsOf evs).foldl qstep q) := by
  rcases pstep_cases hi h with ⟨evs', h1, h2⟩ | ⟨n, v, hpc, h1⟩ | ⟨o, n, v, hpc, h1⟩
  · obtain ⟨t, p, st, lk, l, b, rx, rfl, ht⟩ := step_tr h1
    rw [← h2.queue]
    exact hi.step ht
  · cases h1
    have hn := hi.node n
    rw [hpc] at hn
    exact hi.leave (by rw [hpc]; rfl) rfl trivial (by simp [PC.inClose]) rfl (by rintro m ⟨⟩; exact hn)
  · cases h1
    exact hi.leave (by rw [hpc]; rfl) rfl trivial (by simp [PC.inClose]) rfl (by rintro m ⟨⟩)

/-- The queue as it is after the events. -/
def pqueueOf (tr : PTrace W) : List Nat := queueOf (evsOf tr)

theorem PExec.sinv {tr : PTrace W} {s : State (Wk W)} (h : PExec c tr s) : SInv s (pqueueOf tr) := by
  induction h with
  | init => exact SInv.init
  | step _ hs ih =>
    rw [pqueueOf, evsOf_append, queueOf_append]
    exact ih.pstep hs

theorem Tr.isOp {c : Config W'} {s : State W'} {o : Nat} {p : PC W'} {st : QSt} {lk : Option Tid} {l : WList W'}
    {b : List Nat} {rx : Bool} {evs : Trace W'} (ht : Tr c s (.op o) p st lk l b rx evs) : p.isOp = true := by
  cases ht <;> first
    | rfl
    | (rename_i ha; generalize s.pc (.op o) = p0 at ha; cases ha <;> rfl)

theorem Tr.inCall {c : Config W'} {s : State W'} {t : Tid} {p : PC W'} {st : QSt} {lk : Option Tid} {l : WList W'}
    {b : List Nat} {rx : Bool} {evs : Trace W'} (ht : Tr c s t p st lk l b rx evs) (u : Tid) :
    evs.foldl (cstep u) (s.pc u).busy = if u = t then p.busy else (s.pc u).busy := by
  have hd : ∀ o (x : Option (Nat × Option W')) b, (deqEvents o x).foldl (cstep u) b = b := by
    intro o x b
    rcases x with _ | ⟨n, _ | v⟩ <;> rfl
  by_cases hu : u = t
  · subst hu
    cases ht
    case acq ha => generalize s.pc u = p0 at *; cases ha <;> simp [PC.busy]
    all_goals simp_all [cstep, cstep_touch', PC.busy]
  · rw [if_neg hu]
    generalize (s.pc u).busy = b
    cases ht <;> simp_all [cstep, cstep_touch', -Bool.forall_bool]

theorem PExec.isOp {tr : PTrace W} {s : State (Wk W)} (h : PExec c tr s) (o : Nat) : (s.pc (.op o)).isOp = true := by
  induction h with
  | init => rfl
  | @step tr s s' act evs h hs ih =>
    rcases pstep_cases h.sinv hs with ⟨evs', h1, h2⟩ | ⟨n, v, hpc, h1⟩ | ⟨o', n, v, hpc, h1⟩
    · obtain ⟨t, p, st, lk, l, b, rx, rfl, ht⟩ := step_tr h1
      by_cases he : Tid.op o = t
      · subst he; simpa [State.after] using ht.isOp
      · simpa [State.after, he] using ih
    · cases h1; simpa [State.unlock, State.goto] using ih
    · cases h1
      simp only [State.unlock, State.goto]
      split
      · rfl
      · exact ih

theorem PExec.inCall {tr : PTrace W} {s : State (Wk W)} (h : PExec c tr s) (t : Tid) : pinCall tr t = (s.pc t).busy := by
  induction h with
  | init => cases t <;> rfl
  | @step tr s s' act evs h hs ih =>
    rw [pinCall, List.foldl_append]
    rw [pinCall] at ih
    rw [ih]
    rcases pstep_cases h.sinv hs with ⟨evs', h1, h2⟩ | ⟨n, v, hpc, h1⟩ | ⟨o', n, v, hpc, h1⟩
    · obtain ⟨u, p, st, lk, l, b, rx, rfl, ht⟩ := step_tr h1
      rw [← h2.inCall, ht.inCall]
      simp only [State.after]
      split <;> rfl
    · cases h1
      simp only [State.unlock, State.goto, List.foldl_cons, List.foldl_nil, pcstep]
      split <;> rfl
    · cases h1
      simp only [State.unlock, State.goto, List.foldl_cons, List.foldl_nil, pcstep, cstep]
      split <;> rfl

theorem PExec.solo {tr : PTrace W} {s : State (Wk W)} (h : PExec c tr s) {t : Tid} (hb : (s.pc t).busy = true)
    (hl : s.lock = none ∨ s.lock = some t) :
    ∃ s' evs, pstep c s (t.act) = some (s', evs) ∧ Solo s (pqueueOf tr).length t s' [] (pqueueOf (tr ++ evs)).length := by
  obtain ⟨s1, e1, h1, hs⟩ := h.sinv.solo (c := c.keep) hb hl fun o e => by subst e; exact h.isOp o
  have key : ∃ s' evs, pstep c s (t.act) = some (s', evs) := by
    simp only [Queue.pstep]
    cases hp : panics c s (t.act : Act (Wk W)) with
    | some r => exact ⟨r.1, r.2, rfl⟩
    | none => rw [← step_keep hp, h1]; exact ⟨_, _, rfl⟩
  obtain ⟨s', evs, h2⟩ := key
  refine ⟨s', evs, h2, ?_⟩
  rw [pqueueOf, pqueueOf, evsOf_append, queueOf_append]
  rcases pstep_cases h.sinv h2 with ⟨evs', h3, h4⟩ | ⟨n, v, hpc, h3⟩ | ⟨o', n, v, hpc, h3⟩
  · rw [h1] at h3
    cases h3
    rw [← h4.queue]
    exact ⟨hs.rank, hs.other⟩
  all_goals
    have ht := h.sinv.lockC t
    have hc := (h.sinv.lockC _).2 (by rw [hpc]; rfl)
    rcases hl with hl | hl <;> rw [hl] at hc <;> cases hc
    cases h3
    exact ⟨by simp [State.unlock, State.goto, PC.busy], fun u hu => by simp [State.unlock, State.goto, hu]⟩

theorem prunActs_cons {s s1 s2 : State (Wk W)} {a : Act (Wk W)} {as : List (Act (Wk W))} {e1 e2 : PTrace W}
    (h1 : pstep c s a = some (s1, e1)) (h2 : prunActs c s1 as = some (s2, e2)) : prunActs c s (a :: as) = some (s2, e1 ++ e2) := by
  simp [prunActs, h1, h2]

theorem prunActs_append {s s1 s2 : State (Wk W)} {as bs : List (Act (Wk W))} {e1 e2 : PTrace W} (h1 : prunActs c s as = some (s1, e1))
    (h2 : prunActs c s1 bs = some (s2, e2)) : prunActs c s (as ++ bs) = some (s2, e1 ++ e2) := by
  induction as generalizing s e1 with
  | nil => simp only [prunActs, Option.some.injEq, Prod.mk.injEq] at h1; obtain ⟨rfl, rfl⟩ := h1; simpa using h2
  | cons a as ih =>
    simp only [prunActs, Option.bind_eq_bind, Option.bind_eq_some_iff, Option.pure_def, Option.some.injEq, Prod.mk.injEq] at h1
    obtain ⟨⟨sa, ea⟩, h3, ⟨sb, eb⟩, h4, rfl, rfl⟩ := h1
    rw [List.append_assoc]
    exact prunActs_cons h3 (ih h4)

/-- A call that is not kept waiting by the lock can run to its end alone, and then the lock is free. -/
theorem PExec.runSolo {t : Tid} (m : Nat) : ∀ {tr : PTrace W} {s : State (Wk W)}, PExec c tr s → (s.lock = none ∨ s.lock = some t) →
    (s.pc t).busy = true → (s.pc t).rank s.st (pqueueOf tr).length ≤ m →
    ∃ n s' evs, n ≤ m + 1 ∧ prunActs c s (List.replicate n t.act) = some (s', evs) ∧ (s'.pc t).busy = false ∧ s'.lock = none ∧
      ∀ u, u ≠ t → s'.pc u = s.pc u := by
  induction m with
  | zero =>
    intro tr s h hl hb hm
    exfalso
    revert hm hb
    cases s.pc t <;> simp [PC.busy, PC.rank] <;> split <;> simp
  | succ m ih =>
    intro tr s h hl hb hm
    obtain ⟨s1, e1, h1, hs⟩ := h.solo hb hl
    have h' := h.step h1
    have hl1 : s1.lock = none ∨ s1.lock = some t := by
      cases hlk : s1.lock with
      | none => exact .inl rfl
      | some u =>
        by_cases hu : u = t
        · exact .inr (by rw [hu])
        · have h3 := (h'.sinv.lockC u).1 hlk
          rw [hs.other u hu] at h3
          have h4 := (h.sinv.lockC u).2 h3
          rcases hl with hl | hl <;> rw [hl] at h4 <;> simp at h4
          exact absurd h4.symm hu
    cases hb1 : (s1.pc t).busy with
    | false =>
      refine ⟨1, s1, e1, by omega, ?_, hb1, ?_, hs.other⟩
      · simpa [prunActs] using prunActs_cons (as := []) h1 rfl
      · refine hl1.resolve_right fun hl1 => ?_
        rw [PC.busy_of_crit ((h'.sinv.lockC t).1 hl1)] at hb1
        cases hb1
    | true =>
      obtain ⟨n, s2, e2, hn, h2, hb2, hl2, ho2⟩ := ih h' hl1 hb1 (by have := hs.rank hb1; omega)
      exact ⟨n + 1, s2, e1 ++ e2, by omega, by rw [List.replicate_succ]; exact prunActs_cons h1 h2, hb2, hl2,
        fun u hu => by rw [ho2 u hu, hs.other u hu]⟩

/-- Every call can be brought to its end, if need be by first letting the call that holds the lock run to its end. -/
theorem PExec.canEnd {tr : PTrace W} {s : State (Wk W)} (h : PExec c tr s) {t : Tid} (hb : (s.pc t).busy = true) :
    ∃ u m n s' evs, (s.pc u).busy = true ∧
      prunActs c s (List.replicate m u.act ++ List.replicate n t.act) = some (s', evs) ∧ (s'.pc t).busy = false := by
  cases hlk : s.lock with
  | none =>
    obtain ⟨n, s1, e1, hn, h1, hb1, -⟩ := h.runSolo (t := t) _ (.inl hlk) hb (Nat.le_refl _)
    exact ⟨t, 0, n, s1, e1, hb, by simpa using h1, hb1⟩
  | some u =>
    have hu := PC.busy_of_crit ((h.sinv.lockC u).1 hlk)
    obtain ⟨m, s1, e1, hm, h1, hb1, hl1, ho1⟩ := h.runSolo (t := u) _ (.inr hlk) hu (Nat.le_refl _)
    by_cases htu : t = u
    · subst htu
      exact ⟨t, m, 0, s1, e1, hb, by simpa using h1, hb1⟩
    · have h' := h.run h1
      obtain ⟨n, s2, e2, hn, h2, hb2, -⟩ := h'.runSolo (t := t) _ (.inl hl1) (by rw [ho1 t htu]; exact hb) (Nat.le_refl _)
      exact ⟨u, m, n, s2, e1 ++ e2, hu, prunActs_append h1 h2, hb2⟩

end Thingbuf.Queue
