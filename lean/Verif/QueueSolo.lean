import Verif.QueueHist
import Verif.QueueDemo

/-!
# The wait queue: calls that run alone

A call that is not kept waiting by the holder of the lock ends after finitely many steps of its own.
-/

namespace Thingbuf.Queue

variable {W : Type} {c : Config W} {bm : Bool}

/-- Program counters of calls in progress. -/
def PC.busy : PC W → Bool
  | .idle _ | .gone | .abandoned | .off | .done | .panicked => false
  | _ => true

theorem PC.busy_of_crit {p : PC W} (h : p.crit = true) : p.busy = true := by
  cases p <;> simp [PC.crit, PC.busy] at h ⊢

/-- How many steps a call that runs alone can still take; `k` nodes are in the list. -/
def PC.rank (st : QSt) (k : Nat) : PC W → Nat
  | .startCas _ => 8
  | .startLock _ => 7
  | .startLoad _ => 6
  | .startLoop _ q => if q = st ∨ q = .waiting ∨ q = .closed then 3 else 4
  | .startSet _ => 2
  | .startEnq _ => 1
  | .contLoad _ => 4
  | .contLock _ => 3
  | .contReload _ => 2
  | .contUpd _ => 1
  | .remCheck => 5
  | .remLock => 4
  | .remList => 3
  | .remCas => 2
  | .remUnlock => 1
  | .nLoad => 9
  | .nLoop q => if q = st then 7 else 8
  | .nLock _ => 6
  | .nMatch _ => 5
  | .nForce => 1
  | .nStore _ => 4
  | .nUnlock _ => 3
  | .nWake _ _ => 1
  | .cSwap => 2 * k + 4
  | .cLock => 2 * k + 3
  | .cLoop => 2 * k + 1
  | .cWake _ _ => 2 * k + 2
  | _ => 0

theorem PC.rank_le (st : QSt) (k : Nat) (p : PC W) : p.rank st k ≤ 2 * k + 9 := by
  unfold PC.rank
  split <;> (try split) <;> omega

@[simp] theorem goto_pc (s : State W) (t : Tid) (p : PC W) : (s.goto t p).pc t = p := by simp [State.goto]
@[simp] theorem goto_lock (s : State W) (t : Tid) (p : PC W) : (s.goto t p).lock = s.lock := rfl
@[simp] theorem goto_st (s : State W) (t : Tid) (p : PC W) : (s.goto t p).st = s.st := rfl
@[simp] theorem fail_pc (s : State W) (t : Tid) (evs : List (Event W)) : (fail s t evs).1.pc t = .panicked := by simp [fail]

/-- One step of a call that runs alone. -/
structure Solo (s : State W) (k : Nat) (t : Tid) (s' : State W) (evs : Trace W) (k' : Nat) : Prop where
  rank : (s'.pc t).busy = true → (s'.pc t).rank s'.st k' < (s.pc t).rank s.st k
  other : ∀ u, u ≠ t → s'.pc u = s.pc u

theorem goto_other (s : State W) (t : Tid) (p : PC W) {u : Tid} (h : u ≠ t) : (s.goto t p).pc u = s.pc u := by simp [State.goto, h]

theorem SInv.solo {s : State W} {q : List Nat} (h : SInv s q) {t : Tid} (hb : (s.pc t).busy = true) (hl : s.lock = none ∨ s.lock = some t)
    (ho : ∀ o, t = .op o → (s.pc t).isOp = true) :
    ∃ s' evs, Queue.step c s (t.act) = some (s', evs) ∧ Solo s q.length t s' evs (evs.foldl qstep q).length := by
  have free : (s.pc t).crit = false → s.lock = none := fun hc => hl.resolve_right fun hl => by
    rw [(h.lockC t).1 hl] at hc; cases hc
  cases t with
  | node n =>
    have hn := h.node n
    cases hp : s.pc (.node n) <;> rw [hp] at hb hn free <;> simp [PC.busy, NodeOk] at hb hn <;>
      simp only [Tid.act, Queue.step, nodeStep, hp]
    case startCas v =>
      refine ⟨(startCas s n v).1, (startCas s n v).2, rfl, ?_, fun u hu => ?_⟩ <;> unfold startCas <;> split <;> simp [PC.busy, PC.rank, hp]
      all_goals simp [State.goto, hu]
    case startLock v | contLock v | remLock =>
      simp only [acquire, free rfl]
      exact ⟨_, _, rfl, by simp [PC.busy, PC.rank, hp], fun u hu => by simp [State.goto, hu]⟩
    case startLoad v =>
      exact ⟨_, _, rfl, by simp [PC.busy, PC.rank, hp], fun u hu => by simp [State.goto, hu]⟩
    case startLoop v q' =>
      refine ⟨(startLoop c s n v q' false).1, (startLoop c s n v q' false).2, rfl, ?_, fun u hu => ?_⟩ <;> unfold startLoop <;> split <;> (try split) <;> (try split) <;>
        simp_all [PC.busy, PC.rank, State.unlock, fail, State.goto]
      all_goals (rename_i hne _; split <;> simp_all)
    case startSet v =>
      refine ⟨(startSet c s n v).1, (startSet c s n v).2, rfl, ?_, fun u hu => ?_⟩ <;> unfold startSet <;> simp only <;> split <;>
        simp_all [PC.busy, PC.rank, State.unlock, fail, State.goto]
    case startEnq v =>
      refine ⟨(startEnq c s n v).1, (startEnq c s n v).2, rfl, ?_, fun u hu => ?_⟩ <;> unfold startEnq <;> simp only <;> split <;>
        simp_all [PC.busy, PC.rank, State.unlock, fail, State.goto]
    case contLoad v =>
      refine ⟨(contLoad c s n v).1, (contLoad c s n v).2, rfl, ?_, fun u hu => ?_⟩ <;> unfold contLoad <;> split <;> (try split) <;>
        simp_all [PC.busy, PC.rank, State.unlock, fail, State.goto]
    case contReload v =>
      refine ⟨(contReload c s n v).1, (contReload c s n v).2, rfl, ?_, fun u hu => ?_⟩ <;> unfold contReload <;> split <;> (try split) <;>
        simp_all [PC.busy, PC.rank, State.unlock, fail, State.goto]
    case contUpd v =>
      exact ⟨_, _, rfl, by simp [contUpd, PC.busy, State.unlock, State.goto], fun u hu => by simp [contUpd, State.unlock, State.goto, hu]⟩
    case remCheck =>
      refine ⟨(remCheck s n).1, (remCheck s n).2, rfl, ?_, fun u hu => ?_⟩ <;> unfold remCheck <;> split <;>
        simp_all [PC.busy, PC.rank, State.unlock, fail, State.goto]
    case remList =>
      refine ⟨(remList c s n).1, (remList c s n).2, rfl, ?_, fun u hu => ?_⟩ <;> unfold remList <;> simp only <;> split <;>
        simp_all [PC.busy, PC.rank, State.unlock, fail, State.goto]
    case remCas =>
      refine ⟨(remCas s n).1, (remCas s n).2, rfl, ?_, fun u hu => ?_⟩ <;> unfold remCas <;> split <;>
        simp_all [PC.busy, PC.rank, State.unlock, fail, State.goto]
    case remUnlock =>
      exact ⟨_, _, rfl, by simp [PC.busy, State.unlock, State.goto], fun u hu => by simp [State.unlock, State.goto, hu]⟩
  | op o =>
    have hop := ho o rfl
    cases hp : s.pc (.op o) <;> rw [hp] at hb hop free <;> simp [PC.busy, PC.isOp, PC.inNotify, PC.inClose] at hb hop <;>
      simp only [Tid.act, Queue.step, opStep, hp]
    case nLoad =>
      exact ⟨_, _, rfl, by simp [PC.busy, PC.rank, hp], fun u hu => by simp [State.goto, hu]⟩
    case nLoop q' =>
      refine ⟨(nLoop s o q' false).1, (nLoop s o q' false).2, rfl, ?_, fun u hu => ?_⟩ <;> unfold nLoop <;> split <;> (try split) <;>
        simp_all [PC.busy, PC.rank, State.endNotify, fail, State.goto]
      all_goals (split <;> simp_all)
    case nLock q' | cLock =>
      simp only [acquire, free rfl]
      exact ⟨_, _, rfl, by simp [PC.busy, PC.rank, hp], fun u hu => by simp [State.goto, hu]⟩
    case nMatch q' =>
      refine ⟨(nMatch c s o q').1, (nMatch c s o q').2, rfl, ?_, fun u hu => ?_⟩ <;> unfold nMatch <;> split <;> (try simp only) <;> (try split) <;> (try split) <;>
        simp_all [PC.busy, PC.rank, State.endNotify, State.unlock, fail, State.goto]
    case nForce =>
      exact ⟨_, _, rfl, by simp [PC.busy, State.endNotify, State.unlock, State.goto], fun u hu => by simp [State.endNotify, State.unlock, State.goto, hu]⟩
    case nStore x =>
      refine ⟨(nStore s o x).1, (nStore s o x).2, rfl, ?_, fun u hu => ?_⟩ <;> unfold nStore <;> split <;>
        simp_all [PC.busy, PC.rank, State.unlock, fail, State.goto]
    case nUnlock x =>
      refine ⟨(nUnlock s o x).1, (nUnlock s o x).2, rfl, ?_, fun u hu => ?_⟩ <;> unfold nUnlock <;> split <;>
        simp_all [PC.busy, PC.rank, State.endNotify, State.unlock, fail, State.goto]
    case nWake m v =>
      exact ⟨_, _, rfl, by simp [PC.busy, State.endNotify, State.goto], fun u hu => by simp [State.endNotify, State.goto, hu]⟩
    case cSwap =>
      exact ⟨_, _, rfl, by simp [PC.busy, PC.rank, hp, qstep], fun u hu => by simp [State.goto, hu]⟩
    case cWake m v =>
      exact ⟨_, _, rfl, by simp [PC.busy, PC.rank, hp, qstep], fun u hu => by simp [State.goto, hu]⟩
    case cLoop =>
      unfold cLoop
      by_cases he : s.list.isEmpty = true
      · simp only [he, if_true]
        exact ⟨_, _, rfl, by simp [PC.busy, State.unlock, State.goto], fun u hu => by simp [State.unlock, State.goto, hu]⟩
      · have hq : q ≠ [] := fun e => he (h.isEmpty_iff.2 e)
        rcases h.dequeue .closed with ⟨e, _⟩ | ⟨q', x, v, e, hw, hst, hv, hok, htc, hrep, her, hx, _⟩
        · exact absurd e hq
        · simp only [he, hv, hok, taken, if_false, and_false, Bool.false_eq_true, Bool.true_eq_false]
          refine ⟨_, _, rfl, ?_, fun u hu => by simp [State.goto, hu]⟩
          intro _
          have : (List.foldl qstep q (List.map (Event.touch (Tid.op o)) (s.list.dequeue .closed).touched ++ deqEvents (W := W) o (some (x, some v)))) = q' := by
            rw [List.foldl_append, foldl_touch]
            simp [deqEvents, qstep, her]
          rw [this, goto_pc, hp, e]
          simp [PC.rank]
          omega

/-- The program counters of `notify` and `close` calls. -/
theorem ExecM.isOp {tr : Trace W} {s : State W} (h : ExecM bm c tr s) (o : Nat) : (s.pc (.op o)).isOp = true := by
  induction h with
  | init => rfl
  | @step tr s s' act evs _ hs ih =>
    obtain ⟨t, p, st, lk, l, b, rx, rfl, ht⟩ := step_tr hs
    by_cases he : Tid.op o = t
    · subst he
      simp only [State.after, if_true]
      cases ht <;> first
        | rfl
        | (rename_i ha; generalize s.pc (.op o) = p0 at ha; cases ha <;> rfl)
    · simpa [State.after, he] using ih
  | @stale tr s t p _ h hs ih =>
    have hp := hs.pcs
    by_cases hto : .op o = t
    · subst hto
      rw [State.goto_self]
      generalize s.pc (.op o) = x at hp
      cases hp
      rfl
    · rw [State.goto_ne _ _ hto]; exact ih

theorem inCall_append (tr evs : Trace W) (t : Tid) : inCall (tr ++ evs) t = evs.foldl (cstep t) (inCall tr t) := by
  simp [inCall]

theorem cstep_touch (t u : Tid) (ns : List Nat) (evs : Trace W) (b : Bool) :
    (ns.map (Event.touch u) ++ evs).foldl (cstep t) b = evs.foldl (cstep t) b := by
  induction ns with
  | nil => rfl
  | cons n ns ih => simpa [cstep] using ih

theorem cstep_touch' (t u : Tid) (ns : List Nat) (b : Bool) :
    (ns.map (Event.touch (W := W) u)).foldl (cstep t) b = b := by
  simpa using cstep_touch (W := W) t u ns [] b

theorem Good.inCall {s : State W} {q : List Nat} {t : Tid} {p : PC W} {st : QSt} {evs : Trace W} (hg : Good c s q t p st evs) (u : Tid) :
    evs.foldl (cstep u) (s.pc u).busy = if u = t then p.busy else (s.pc u).busy := by
  by_cases hu : u = t
  · subst hu
    cases hg <;> simp_all [cstep, cstep_touch', PC.busy]
  · rw [if_neg hu]
    generalize (s.pc u).busy = b
    cases hg <;> simp_all [cstep, cstep_touch']

theorem ExecM.inCall {tr : Trace W} {s : State W} (h : ExecM bm c tr s) (t : Tid) : Queue.inCall tr t = (s.pc t).busy := by
  induction h with
  | init => cases t <;> rfl
  | @step tr s s' act evs h hs ih =>
    obtain ⟨u, p, st, lk, l, b, rx, rfl, _, hg⟩ := h.good hs
    rw [inCall_append, ih, hg.inCall]
    simp only [State.after]
    split <;> rfl
  | @stale tr s u p _ h hs ih =>
    have hp := hs.pcs
    rw [ih]
    by_cases hto : t = u
    · subst hto
      rw [State.goto_self]
      generalize s.pc t = x at hp
      cases hp <;> rfl
    · rw [State.goto_ne _ _ hto]

theorem Good.len {s : State W} {q : List Nat} {t : Tid} {p : PC W} {st : QSt} {evs : Trace W} (hg : Good c s q t p st evs) :
    (evs.foldl qstep q).length ≤ q.length ∨ (s.pc t).busy = true ∧ p.busy = false ∧ (evs.foldl qstep q).length ≤ q.length + 1 := by
  have he : ∀ x, (q.erase x).length ≤ q.length := fun x => List.length_erase_le
  cases hg <;> simp [qstep, foldl_touch, PC.busy, he, *]

theorem runActs_cons {s s1 s2 : State W} {a : Act W} {as : List (Act W)} {e1 e2 : Trace W} (h1 : Queue.step c s a = some (s1, e1))
    (h2 : runActs c s1 as = some (s2, e2)) : runActs c s (a :: as) = some (s2, e1 ++ e2) := by
  simp [runActs, h1, h2]

theorem runActs_append {s s1 s2 : State W} {as bs : List (Act W)} {e1 e2 : Trace W} (h1 : runActs c s as = some (s1, e1))
    (h2 : runActs c s1 bs = some (s2, e2)) : runActs c s (as ++ bs) = some (s2, e1 ++ e2) := by
  induction as generalizing s e1 with
  | nil => simp only [runActs, Option.some.injEq, Prod.mk.injEq] at h1; obtain ⟨rfl, rfl⟩ := h1; simpa using h2
  | cons a as ih =>
    simp only [runActs, Option.bind_eq_bind, Option.bind_eq_some_iff, Option.pure_def, Option.some.injEq, Prod.mk.injEq] at h1
    obtain ⟨⟨sa, ea⟩, h3, ⟨sb, eb⟩, h4, rfl, rfl⟩ := h1
    rw [List.append_assoc]
    exact runActs_cons h3 (ih h4)

/-- A call that is not kept waiting by the lock can run to its end alone. -/
theorem ExecM.runSolo {t : Tid} (m : Nat) : ∀ {tr : Trace W} {s : State W}, ExecM bm c tr s → (s.lock = none ∨ s.lock = some t) →
    (s.pc t).busy = true → (s.pc t).rank s.st (queueOf tr).length ≤ m →
    ∃ n s' evs, n ≤ m ∧ runActs c s (List.replicate n t.act) = some (s', evs) ∧ (s'.pc t).busy = false ∧ s'.lock = none ∧
      (∀ u, u ≠ t → s'.pc u = s.pc u) ∧ (queueOf (tr ++ evs)).length ≤ (queueOf tr).length + 1 := by
  induction m with
  | zero =>
    intro tr s h hl hb hm
    obtain ⟨s1, e1, h1, hs⟩ := h.inv.solo (c := c) hb hl fun o e => by subst e; exact h.isOp o
    have h' := h.step h1
    have : (s1.pc t).busy = false := by
      cases hb1 : (s1.pc t).busy with
      | false => rfl
      | true => have := hs.rank hb1; omega
    exfalso
    revert hm hb
    cases s.pc t <;> simp [PC.busy, PC.rank] <;> split <;> simp
  | succ m ih =>
    intro tr s h hl hb hm
    obtain ⟨s1, e1, h1, hs⟩ := h.inv.solo (c := c) hb hl fun o e => by subst e; exact h.isOp o
    have h' := h.step h1
    have hq : queueOf (tr ++ e1) = e1.foldl qstep (queueOf tr) := by simp [queueOf]
    have hl1 : s1.lock = none ∨ s1.lock = some t := by
      cases hlk : s1.lock with
      | none => exact .inl rfl
      | some u =>
        by_cases hu : u = t
        · exact .inr (by rw [hu])
        · have h3 := (h'.inv.lockC u).1 hlk
          rw [hs.other u hu] at h3
          have h4 := (h.inv.lockC u).2 h3
          rcases hl with hl | hl <;> rw [hl] at h4 <;> simp at h4
          exact absurd h4.symm hu
    obtain ⟨u, p, st, lk, l, b, rx, he, _, hg⟩ := h.good h1
    have hlen := hg.len
    rw [← hq] at hlen
    have hut : (s.pc u).busy = true → p.busy = false → u = t := fun h1 h2 => Classical.byContradiction fun hu => by
      have := hs.other u hu
      rw [he] at this
      simp only [State.after, if_true] at this
      rw [← this, h2] at h1
      cases h1
    cases hb1 : (s1.pc t).busy with
    | false =>
      refine ⟨1, s1, e1, by omega, ?_, hb1, ?_, hs.other, by omega⟩
      · simpa [runActs] using runActs_cons (as := []) h1 rfl
      · refine hl1.resolve_right fun hl1 => ?_
        rw [PC.busy_of_crit ((h'.inv.lockC t).1 hl1)] at hb1
        cases hb1
    | true =>
      obtain ⟨n, s2, e2, hn, h2, hb2, hl2, ho2, hlen2⟩ := ih h' hl1 hb1 (by have := hs.rank hb1; rw [hq]; omega)
      have hlen1 := hlen.resolve_right fun ⟨h1, h2, _⟩ => by
        rw [he, hut h1 h2] at hb1
        simp [State.after, h2] at hb1
      refine ⟨n + 1, s2, e1 ++ e2, by omega, by rw [List.replicate_succ]; exact runActs_cons h1 h2, hb2, hl2, fun u hu => by rw [ho2 u hu, hs.other u hu], ?_⟩
      rw [← List.append_assoc]
      omega

/-- `borrows` are the `notify` calls in progress. -/
theorem ExecM.borrows {tr : Trace W} {s : State W} (h : ExecM bm c tr s) :
    s.borrows.Nodup ∧ ∀ o, o ∈ s.borrows → (s.pc (.op o)).inNotify = true := by
  induction h with
  | init => simp [State.init]
  | @step tr s s' act evs h hs ih =>
    obtain ⟨t, p, st, lk, l, b, rx, rfl, ht⟩ := step_tr hs
    obtain ⟨hn, hi⟩ := ih
    have keep : ∀ {t p st lk l rx}, (∀ o, t = .op o → o ∈ s.borrows → p.inNotify = true) →
        (s.after t p st lk l s.borrows rx).borrows.Nodup ∧ ∀ o, o ∈ s.borrows → ((s.after t p st lk l s.borrows rx).pc (.op o)).inNotify = true := by
      intro t p st lk l rx hp
      refine ⟨hn, fun o ho => ?_⟩
      simp only [State.after]
      split
      · rename_i e; exact hp o e.symm ho
      · exact hi o ho
    have drop : ∀ {x p st lk l rx}, 
        (s.after (.op x) p st lk l (s.borrows.erase x) rx).borrows.Nodup ∧
          ∀ o, o ∈ s.borrows.erase x → ((s.after (.op x) p st lk l (s.borrows.erase x) rx).pc (.op o)).inNotify = true := by
      intro x p st lk l rx
      refine ⟨hn.erase _, fun o ho => ?_⟩
      have := (List.Nodup.mem_erase_iff hn).1 ho
      simp only [State.after]
      rw [if_neg (by simpa using this.1)]
      exact hi o this.2
    cases ht
    case callNotify o hp hr =>
      have hno : o ∉ s.borrows := fun ho => by have := hi o ho; rw [hp] at this; cases this
      refine ⟨List.nodup_cons.2 ⟨hno, hn⟩, fun o' ho' => ?_⟩
      simp only [State.after] at ho' ⊢
      split
      · rfl
      · rename_i e
        rcases List.mem_cons.1 ho' with rfl | ho'
        · exact absurd rfl e
        · exact hi _ ho'
    case acq p' hl ha =>
      refine keep fun o e ho => ?_
      subst e
      have := hi o ho
      generalize s.pc (.op o) = p0 at ha this
      cases ha <;> first | rfl | cases this
    all_goals first
      | exact drop
      | (refine keep fun o e ho => ?_
         cases e; done)
      | (refine keep fun o e ho => ?_
         cases e; rfl)
      | (refine keep fun o e ho => ?_
         cases e
         have := hi _ ho
         rename_i hp
         rw [hp] at this; cases this)
      | (refine keep fun o e ho => ?_
         cases e
         have := hi _ ho
         rename_i hp _ _
         rw [hp] at this; cases this)
      | (refine keep fun o e ho => ?_
         cases e
         have := hi _ ho
         rename_i hp _
         rw [hp] at this; cases this)
      | (refine keep fun o e ho => ?_
         cases e
         have := hi _ ho
         rename_i hp _ _ _
         rw [hp] at this; cases this)
  | @stale tr s t p _ h hs ih =>
    refine ⟨ih.1, fun o ho => ?_⟩
    have hp := hs.pcs
    have h1 := ih.2 o ho
    by_cases hto : .op o = t
    · subst hto
      rw [State.goto_self]
      generalize s.pc (.op o) = x at hp
      cases hp
      rfl
    · rw [State.goto_ne _ _ hto]; exact h1

/-- Every call can be brought to its end, if need be by first letting the call that holds the lock run to its end. -/
theorem ExecM.canEnd {tr : Trace W} {s : State W} (h : ExecM bm c tr s) {t : Tid} (hb : (s.pc t).busy = true) :
    ∃ u m n s' evs, (s.pc u).busy = true ∧ m + n ≤ 4 * (queueOf tr).length + 20 ∧
      runActs c s (List.replicate m u.act ++ List.replicate n t.act) = some (s', evs) ∧ (s'.pc t).busy = false := by
  have hr := fun (u : Tid) => PC.rank_le s.st (queueOf tr).length (s.pc u)
  cases hlk : s.lock with
  | none =>
    obtain ⟨n, s1, e1, hn, h1, hb1, -⟩ := h.runSolo (t := t) _ (.inl hlk) hb (hr t)
    exact ⟨t, 0, n, s1, e1, hb, by omega, by simpa using h1, hb1⟩
  | some u =>
    have hu := PC.busy_of_crit ((h.inv.lockC u).1 hlk)
    obtain ⟨m, s1, e1, hm, h1, hb1, hl1, ho1, hq1⟩ := h.runSolo (t := u) _ (.inr hlk) hu (hr u)
    by_cases htu : t = u
    · subst htu
      exact ⟨t, m, 0, s1, e1, hb, by omega, by simpa using h1, hb1⟩
    · have h' := h.of_runActs h1
      obtain ⟨n, s2, e2, hn, h2, hb2, -⟩ := h'.runSolo (t := t) _ (.inl hl1) (by rw [ho1 t htu]; exact hb) (PC.rank_le ..)
      exact ⟨u, m, n, s2, e1 ++ e2, hu, by omega, runActs_append h1 h2, hb2⟩

end Thingbuf.Queue
