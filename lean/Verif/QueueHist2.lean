import Verif.QueueHist

/-!
# Histories of the wait queue: the state word

Helper lemmas for `QueueProps`.
-/

namespace Thingbuf.Queue

variable {W : Type} {c : Config W}

theorem ExecM.closing_iff {b : Bool} {tr : Trace W} {s : State W} (h : ExecM b c tr s) :
    s.st = .closed ↔ ∃ o, .closing o ∈ tr := by
  induction h with
  | init => simp [State.init]
  | @step tr s s' act evs h hs ih =>
    obtain ⟨t, p, st, lk, l, b, rx, rfl, ht, hg⟩ := h.good hs
    have hi := h.inv
    have hnc := fun t ht => hi.notClosed (t := t) ht
    have hloc := hi.loc t
    simp only [State.after]
    clear ht hs
    cases hg
    case loopAgain => simp_all
    case nStoreEmpty o w hpc hq =>
      have := hnc (.op o) (by rw [hpc]; rfl)
      simp_all
    case nFast o q0 hpc hq hs =>
      have := hnc (.op o) (by rw [hpc]; rfl)
      simp_all
    all_goals simp_all
  | stale _ _ _ ih => exact ih

theorem Good.st_change {s : State W} {q : List Nat} {t : Tid} {p : PC W} {st : QSt} {evs : Trace W}
    (hg : Good c s q t p st evs) : st = s.st ∨ (st ≠ .waiting ∧ s.st ≠ .waiting) ∨
      (s.pc t).crit = true ∨ (s.pc t).inClose = true := by
  cases hg
  case nFast o q0 hpc hq hs => right; left; rcases hq with h | h <;> simp_all
  case startConsume h hs => right; left; simp [hs]
  case remEmpty h _ _ => rw [h]; simp [PC.crit]
  all_goals first | exact .inl rfl | (rename_i h _; rw [h]; simp [PC.crit, PC.inClose]; done) | (rename_i h; rw [h]; simp [PC.crit, PC.inClose]; done)

/-- The state word while a `notify` is between taking a node and looking whether the list is
empty. -/
theorem ExecM.nStoreSt {b : Bool} {tr : Trace W} {s : State W} (h : ExecM b c tr s) (o : Nat) :
    (∀ x, s.pc (.op o) = .nStore (some x) → s.st = .waiting) ∧
      (s.pc (.op o) = .nStore none → s.st ≠ .waiting) := by
  induction h with
  | init => simp [State.init]
  | @step tr s s' act evs h hs ih =>
    obtain ⟨t, p, st, lk, l, b, rx, rfl, ht, hg⟩ := h.good hs
    have hi := h.inv
    have hex := fun t u ht hu => hi.excl (t := t) (u := u) ht hu
    have hnc := fun t ht => hi.notClosed (t := t) ht
    simp only [State.after]
    clear ht hs
    by_cases hto : t = .op o
    · subst hto
      rw [if_pos rfl]
      cases hg <;> simp_all
    · rw [if_neg (fun h => hto h.symm)]
      rcases hg.st_change with rfl | ⟨h1, h2⟩ | h1 | h1
      · exact ih
      · exact ⟨fun x hx => absurd (ih.1 x hx) h2, fun _ => h1⟩
      · refine ⟨fun x hx => ?_, fun hx => ?_⟩ <;>
          exact absurd (hex t (.op o) h1 (by rw [hx]; rfl)) hto
      · refine ⟨fun x hx => ?_, fun hx => ?_⟩
        · have := hi.borrow (.op o) (by rw [hx]; rfl)
          simp [hi.rxB (hi.clos t h1)] at this
        · have := hi.borrow (.op o) (by rw [hx]; rfl)
          simp [hi.rxB (hi.clos t h1)] at this
  | @stale tr s t p _ h hs ih =>
    have hp := hs.pcs
    by_cases hto : .op o = t
    · subst hto
      rw [State.goto_self]
      generalize s.pc (.op o) = x at hp ih
      cases hp
      exact ⟨by simp, by simp⟩
    · rw [State.goto_ne _ _ hto]; exact ih

/-! ## Overlapping calls -/

theorem Overlapped.append {tr evs : Trace W} {o : Nat} (h : Overlapped tr o) :
    Overlapped (tr ++ evs) o := by
  obtain ⟨pre, mid, rest, rfl, h⟩ := h
  exact ⟨pre, mid, rest ++ evs, by simp, h⟩

theorem Overlapped.of_append {tr pre : Trace W} {o : Nat} (h : Overlapped pre o) (hp : pre <+: tr) :
    Overlapped tr o := by
  obtain ⟨l, rfl⟩ := hp
  exact h.append

theorem mem_opEvs {tr : Trace W} {e : Event W} {o : Nat} (he : e.byOp = some o) :
    e ∈ opEvs tr o ↔ e ∈ tr := by
  simp [opEvs, he]

/-- Another `notify` that has taken a node and not returned. -/
theorem overlapped_notify {tr : Trace W} {o o' n : Nat} (ho : o' ≠ o) (hc : Event.callNotify o ∈ tr)
    (hnr : ∀ b, Event.retNotify o b ∉ tr)
    (h : opEvs tr o' = [.callNotify o', .deq o' n]) : Overlapped tr o := by
  obtain ⟨pre, post, h1⟩ := List.append_of_mem hc
  have hm : ∀ e : Event W, e ≠ .callNotify o → e ∈ tr → e ∈ pre ++ post := by
    intro e he hm
    rw [h1] at hm
    simp only [List.mem_append, List.mem_cons] at hm ⊢
    rcases hm with hm | hm | hm
    · exact .inl hm
    · exact absurd hm he
    · exact .inr hm
  refine ⟨pre, post, [], by simpa using h1, fun b hb => hnr b (by rw [h1]; simp [hb]),
    .inl ⟨o', n, ho, ?_, ?_, ?_⟩⟩
  · apply hm _ (by simpa using ho)
    rw [← mem_opEvs (o := o') rfl, h]; simp
  · apply hm _ (by simp)
    rw [← mem_opEvs (o := o') rfl, h]; simp
  · intro b hb
    have : Event.retNotify o' b ∈ tr := by rw [h1]; simp [hb]
    rw [← mem_opEvs (o := o') rfl, h] at this
    simp at this

/-- A drop that has removed its node and not ended. -/
theorem overlapped_drop {tr : Trace W} {o n : Nat} (hc : Event.callNotify o ∈ tr)
    (hnr : ∀ b, Event.retNotify o b ∉ tr)
    (hd : Event.callDrop n ∈ tr) (hr : Event.rem n ∈ tr) (hf : Event.free n ∉ tr) :
    Overlapped tr o := by
  obtain ⟨pre, post, h1⟩ := List.append_of_mem hc
  refine ⟨pre, post, [], by simpa using h1, fun b hb => hnr b (by rw [h1]; simp [hb]),
    .inr ⟨n, ?_, ?_, fun h => hf (by rw [h1]; simp [h])⟩⟩
  · rw [h1] at hd; simpa using hd
  · rw [h1] at hr; simpa using hr

/-- A thread is about to put its node into the list. -/
def Filling (s : State W) : Prop := ∃ n v, s.pc (.node n) = .startSet v ∨ s.pc (.node n) = .startEnq v

/-- What is known when a `notify` saw the state "waiting". -/
def OverOk (s : State W) (tr : Trace W) (o : Nat) : Prop :=
  match s.pc (.op o) with
  | .nLoop .waiting | .nLock _ | .nMatch _ => queueOf tr ≠ [] ∨ Filling s ∨ Overlapped tr o
  | .nStore none | .nUnlock none => Overlapped tr o
  | _ => True

theorem ExecM.called {b : Bool} {tr : Trace W} {s : State W} (h : ExecM b c tr s) {o : Nat}
    (hp : (s.pc (.op o)).inNotify = true) : Event.callNotify o ∈ tr := by
  have ho := h.opHist o
  rw [← mem_opEvs (o := o) rfl]
  generalize s.pc (.op o) = p at hp ho
  unfold OpHist at ho
  split at ho <;> simp_all [PC.inNotify]

theorem ExecM.notReturned {b : Bool} {tr : Trace W} {s : State W} (h : ExecM b c tr s) {o : Nat}
    (hp : (s.pc (.op o)).inNotify = true) (b : Bool) : Event.retNotify o b ∉ tr := by
  have ho := h.opHist o
  rw [← mem_opEvs (o := o) rfl]
  generalize s.pc (.op o) = p at hp ho
  unfold OpHist at ho
  split at ho <;> simp_all [PC.inNotify]

/-- A state that says "waiting" although the list is empty: somebody is about to fill the
list, or a call that has not ended took the last node. -/
theorem ExecM.waiting_cases {b : Bool} {tr : Trace W} {s : State W} (h : ExecM b c tr s) (hw : s.st = .waiting)
    {o : Nat} (hc : Event.callNotify o ∈ tr) (hnr : ∀ b, Event.retNotify o b ∉ tr) (hno : ∀ w, s.pc (.op o) ≠ .nStore w) :
    queueOf tr ≠ [] ∨ Filling s ∨ Overlapped tr o := by
  rcases h.inv.wait hw with h1 | ⟨t, h1, h2⟩
  · exact .inl h1
  · right
    generalize hp : s.pc t = p at h2
    cases t with
    | node n =>
      have hl := h.nodeLife n
      have hn := h.inv.node n
      rw [hp] at hl hn
      cases p <;> simp [PC.loose] at h2
      · exact .inl ⟨n, _, .inl hp⟩
      · exact .inl ⟨n, _, .inr hp⟩
      · exact .inr (overlapped_drop hc hnr hl.2.1 hl.2.2.2 hl.1)
      · exact hn.elim
    | op o' =>
      have ho := h.opHist o'
      rw [hp] at ho
      cases p <;> simp [PC.loose] at h2
      · exact ho.elim
      · exact ho.elim
      · exact ho.elim
      · rename_i w
        have hne : o' ≠ o := fun he => hno w (by rw [← he, hp])
        cases w with
        | none => exact absurd hw ((h.nStoreSt o').2 hp)
        | some x => exact .inr (overlapped_notify hne hc hnr ho)

theorem Good.queue_change {s : State W} {q : List Nat} {t : Tid} {p : PC W} {st : QSt}
    {evs : Trace W} (hg : Good c s q t p st evs) :
    evs.foldl qstep q = q ∨ evs.foldl qstep q ≠ [] ∨ (∃ o x, t = .op o ∧ p = .nStore (some x)) ∨
      (∃ n, t = .node n ∧ p = .remCas) ∨ (s.pc t).inClose = true := by
  cases hg
  case enq => right; left; simp [fold_touch_append, qstep]
  case rem n ns h hn => exact .inr (.inr (.inr (.inl ⟨n, rfl, rfl⟩)))
  case deq o x v q' ns h hq hv hn hst => exact .inr (.inr (.inl ⟨o, _, rfl, rfl⟩))
  case cDeq h _ _ _ _ => right; right; right; right; rw [h]; rfl
  all_goals exact .inl rfl

theorem ExecM.over_step {tr : Trace W} {s s' : State W} {act : Act W} {evs : Trace W} (h : Exec c tr s)
    (hs : Queue.step c s act = some (s', evs)) {o : Nat} (hn' : (s'.pc (.op o)).inNotify = true)
    (hn : (s.pc (.op o)).inNotify = true) (hnst : ∀ w, s'.pc (.op o) ≠ .nStore w)
    (hi : queueOf tr ≠ [] ∨ Filling s ∨ Overlapped tr o) :
    queueOf (tr ++ evs) ≠ [] ∨ Filling s' ∨ Overlapped (tr ++ evs) o := by
  have h' := h.step hs
  have hc := h'.called hn'
  have hnr := h'.notReturned hn'
  obtain ⟨t, p, st, lk, l, b, rx, hs', ht, hg⟩ := h.good hs
  rcases hi with hi | hi | hi
  · rw [queueOf_append]
    rcases hg.queue_change with h1 | h1 | ⟨o', x, h1, h2⟩ | ⟨n, h1, h2⟩ | h1
    · exact .inl (by rw [h1]; exact hi)
    · exact .inl h1
    · right; right
      subst h1 h2 hs'
      have ho := h'.opHist o'
      refine overlapped_notify (o' := o') ?_ hc hnr (by simpa [State.after, OpHist] using ho)
      rintro rfl
      exact hnst (some x) (by simp [State.after])
    · right; right
      subst h1 h2 hs'
      have hl := h'.nodeLife n
      simp [State.after, NodeLife, -List.mem_append] at hl
      exact overlapped_drop hc hnr hl.2.1 hl.2.2.2 hl.1
    · have := h.inv.borrow (.op o) hn
      simp [h.inv.rxB (h.inv.clos t h1)] at this
  · obtain ⟨n, v, hf⟩ := hi
    by_cases hto : t = .node n
    · subst hto
      cases hg <;> simp_all
      case set => right; left; exact ⟨n, v, .inr (by simp [State.after])⟩
      case enq => left; simp [queueOf_append, fold_touch_append, qstep]
    · right; left
      refine ⟨n, v, ?_⟩
      rw [hs']
      simp only [State.after]
      rw [if_neg (fun h => hto h.symm)]
      exact hf
  · exact .inr (.inr hi.append)

theorem ExecM.overOk {tr : Trace W} {s : State W} (h : Exec c tr s) (o : Nat) : OverOk s tr o := by
  induction h with
  | init => simp [State.init, OverOk]
  | @step tr s s' act evs h hs ih =>
    have hstep := h.over_step hs (o := o)
    obtain ⟨t, p, st, lk, l, b, rx, rfl, ht, hg⟩ := h.good hs
    by_cases hto : t = .op o
    · subst hto
      simp only [OverOk, State.after, if_true] at hstep ⊢
      have hwc := h.waiting_cases (o := o)
      have hcl := h.called (o := o)
      have hnr := h.notReturned (o := o)
      have hex := fun t u ht hu => h.inv.excl (t := t) (u := u) ht hu
      unfold OverOk at ih
      cases hg
      case nLoad hpc =>
        cases hst : s.st <;> simp only
        rw [hpc] at hcl hnr
        exact hstep rfl (by rw [hpc]; rfl) (by simp) (hwc hst (hcl rfl) (hnr rfl) (by simp [hpc]))
      case nAgain q0 hq hpc =>
        cases hst : s.st <;> simp only
        rw [hpc] at hcl hnr
        exact hstep rfl (by rw [hpc]; rfl) (by simp) (hwc hst (hcl rfl) (hnr rfl) (by simp [hpc]))
      case nSlow hpc =>
        rw [hpc] at ih
        exact hstep rfl (by rw [hpc]; rfl) (by simp) ih
      case acqNotify hl hpc =>
        rw [hpc] at ih
        exact hstep rfl (by rw [hpc]; rfl) (by simp) ih
      case deqNone hq hd hst hpc =>
        rw [hpc] at ih
        rcases ih with ih | ⟨n, v, ih⟩ | ih
        · exact absurd hq ih
        · have := hex (.op o) (.node n) (by rw [hpc]; rfl)
            (by rcases ih with ih | ih <;> rw [ih] <;> rfl)
          cases this
        · exact ih.append
      case nStoreEmpty w hq hpc => rw [hpc] at ih; cases w <;> simp_all
      case nStoreSkip w hq hpc => rw [hpc] at ih; cases w <;> simp_all
      all_goals trivial
    · have hpc : (s.after t p st lk l b rx).pc (.op o) = s.pc (.op o) := by
        simp only [State.after]; rw [if_neg (fun h => hto h.symm)]
      unfold OverOk at ih ⊢
      rw [hpc] at hstep ⊢
      generalize s.pc (.op o) = p0 at ih hstep ⊢
      split at ih
      · exact hstep rfl rfl (by simp) ih
      · exact hstep rfl rfl (by simp) ih
      · exact hstep rfl rfl (by simp) ih
      · exact ih.append
      · exact ih.append
      · trivial
  | stale hb => cases hb

/-- A failed assertion is that of a `notify` that overlapped. -/
theorem ExecM.fail_overlapped {tr : Trace W} {s : State W} (h : Exec c tr s) {o : Nat}
    (hp : s.pc (.op o) = .nMatch .waiting) (hq : queueOf tr = []) : Overlapped tr o := by
  have ih := h.overOk o
  unfold OverOk at ih
  rw [hp] at ih
  rcases ih with ih | ⟨n, v, ih⟩ | ih
  · exact absurd hq ih
  · have := h.inv.excl (t := .op o) (u := .node n) (by rw [hp]; rfl)
      (by rcases ih with ih | ih <;> rw [ih] <;> rfl)
    cases this
  · exact ih

/-- Call `o` overlapped with another one, unless loads may return old values (`b`). -/
def OverB (b : Bool) (pre : Trace W) (o : Nat) : Prop :=
  match b with
  | true => True
  | false => Overlapped pre o

theorem OverB.append {b : Bool} {pre evs : Trace W} {o : Nat} (h : OverB b pre o) : OverB b (pre ++ evs) o := by
  cases b
  · exact Overlapped.append h
  · trivial

theorem ExecM.fail_overB {b : Bool} {tr : Trace W} {s : State W} (h : ExecM b c tr s) {o : Nat}
    (hp : s.pc (.op o) = .nMatch .waiting) (hq : queueOf tr = []) : OverB b tr o := by
  cases b
  · exact h.fail_overlapped hp hq
  · trivial

theorem ExecM.unlock_overB {b : Bool} {tr : Trace W} {s : State W} (h : ExecM b c tr s) {o : Nat}
    (hp : s.pc (.op o) = .nUnlock none) : OverB b tr o := by
  cases b
  · have h1 := ExecM.overOk h o
    unfold OverOk at h1
    rwa [hp] at h1
  · trivial

theorem ExecM.store_overB {b : Bool} {tr : Trace W} {s : State W} (h : ExecM b c tr s) {o : Nat}
    (hp : s.pc (.op o) = .nStore none) : OverB b tr o := by
  cases b
  · have h1 := ExecM.overOk h o
    unfold OverOk at h1
    rwa [hp] at h1
  · trivial

/-! ## The stored notification -/

theorem stored_append (tr evs : Trace W) : stored (tr ++ evs) = evs.foldl sstep (stored tr) := by
  simp [stored]

theorem stored_touch (t : Tid) (ns : List Nat) (evs : Trace W) (b : Bool) :
    (ns.map (Event.touch t) ++ evs).foldl sstep b = evs.foldl sstep b := by
  induction ns with
  | nil => rfl
  | cons n ns ih => simpa [sstep] using ih

theorem ExecM.stored_of_waking {b : Bool} {tr : Trace W} {s : State W} (h : ExecM b c tr s) :
    s.st = .waking → stored tr = true := by
  induction h with
  | init => simp [State.init]
  | @step tr s s' act evs h hs ih =>
    obtain ⟨t, p, st, lk, l, b, rx, rfl, ht, hg⟩ := h.good hs
    rw [stored_append]
    simp only [State.after]
    cases hg <;> (try rw [stored_touch]) <;> simp_all [sstep]
  | stale _ _ _ ih => exact ih

/-- A stored notification stays until it is consumed, the queue is closed, or a `notify` that
overlapped with another call overwrites it. -/
theorem ExecM.waking_of_stored {b : Bool} {tr : Trace W} {s : State W} (h : ExecM b c tr s) :
    stored tr = true → s.st = .waking ∨ s.st = .closed ∨ (c.debug = false ∧ ∃ o, OverB b tr o) := by
  induction h with
  | init => simp [stored]
  | @step tr s s' act evs h hs ih =>
    obtain ⟨t, p, st, lk, l, bo, rx, rfl, ht, hg⟩ := h.good hs
    have hover := fun o => h.store_overB (o := o)
    have hh := fun o => h.opHist o
    have hnst := fun o => h.nStoreSt o
    rw [stored_append]
    simp only [State.after]
    intro h1
    have mono : (c.debug = false ∧ ∃ o, OverB b tr o) →
        (c.debug = false ∧ ∃ o, OverB b (tr ++ evs) o) :=
      fun ⟨h2, o, h3⟩ => ⟨h2, o, h3.append⟩
    clear ht hs
    cases hg
    case nStoreEmpty o w hpc hq =>
      cases w with
      | none =>
        right; right
        have h2 := hover o hpc
        have h3 := hh o
        rw [hpc] at h3
        exact ⟨h3.2, o, h2.append⟩
      | some x =>
        have h2 := (hnst o).1 x hpc
        rcases ih h1 with h3 | h3 | h3
        · simp [h2] at h3
        · simp [h2] at h3
        · exact .inr (.inr (mono h3))
    case loopSet => 
      rcases ih h1 with h3 | h3 | h3
      · simp_all
      · simp_all
      · exact .inr (.inr (mono h3))
    case remEmpty => 
      rcases ih h1 with h3 | h3 | h3
      · simp_all
      · simp_all
      · exact .inr (.inr (mono h3))
    all_goals first
      | exact .inl rfl
      | exact .inr (.inl rfl)
      | (exfalso; simp [sstep] at h1; done)
      | (try rw [stored_touch] at h1
         simp only [List.foldl, sstep] at h1
         rcases ih h1 with h3 | h3 | h3
         · exact .inl h3
         · exact .inr (.inl h3)
         · exact .inr (.inr (mono h3)))
  | stale _ _ _ ih => exact ih

end Thingbuf.Queue
