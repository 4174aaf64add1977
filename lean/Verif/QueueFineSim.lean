import Verif.QueueFine

/-!
# The two-step dequeue behaves like the one-step dequeue

Apart from accesses to memory, every execution with the two-step `List::dequeue` of `QueueFine`
is one of `Queue`: the dequeue takes effect at its first half. Helper lemmas for
`QueueFineProps`.
-/

namespace Thingbuf.Queue

variable {W : Type} {c : Config W}

/-! ## The list -/

theorem WList.ext' {l l' : WList W} (h1 : l.head = l'.head) (h2 : l.tail = l'.tail)
    (h3 : ∀ n, l.node n = l'.node n) : l = l' := by
  cases l; cases l'; simp at h1 h2; subst h1 h2
  congr 1; funext n; exact h3 n

theorem WList.unlinkLast_set (l : WList W) {t : Nat} (ns : QSt) (ht : l.tail = some t) :
    (l.set t fun nd => { nd with state := ns }).unlinkLast t = (l.dequeue ns).list := by
  unfold WList.unlinkLast WList.dequeue
  rw [ht]
  simp only [WList.set_node_same]
  cases hp : (l.node t).prev with
  | none =>
    apply WList.ext' <;> simp only [] <;> intros <;> simp only [WList.set_node]
    split <;> simp_all
  | some p =>
    apply WList.ext' <;> simp only [WList.set_head] <;> intros <;> simp only [WList.set_node]
    split <;> split <;> simp_all

theorem WList.unlinkLast_state (l : WList W) (t n : Nat) :
    ((l.unlinkLast t).node n).state = (l.node n).state := by
  unfold WList.unlinkLast
  cases (l.node t).prev <;> simp only [WList.set_node]
  · split <;> rfl
  · split <;> split <;> rfl

theorem WList.unlinkLast_tail (l : WList W) (t : Nat) :
    (l.unlinkLast t).tail = (l.node t).prev := by
  unfold WList.unlinkLast
  cases (l.node t).prev <;> rfl

/-! ## Steps of the other threads -/

/-- The same state with another list and another program counter of `o`. -/
def State.veil (s : State W) (L : WList W) (o : Nat) (P : PC W) : State W :=
  { s with list := L }.goto (.op o) P

theorem State.veil_pc (s : State W) (L : WList W) (o : Nat) (P : PC W) {u : Tid} (h : u ≠ .op o) :
    (s.veil L o P).pc u = s.pc u := by
  simp [State.veil, State.goto, h]

theorem State.veil_pc_self (s : State W) (L : WList W) (o : Nat) (P : PC W) :
    (s.veil L o P).pc (.op o) = P := by
  simp [State.veil, State.goto]

theorem State.veil_goto (s : State W) (L : WList W) (o : Nat) (P : PC W) {u : Tid} (h : u ≠ .op o)
    (p : PC W) : (s.veil L o P).goto u p = (s.goto u p).veil L o P := by
  unfold State.veil State.goto
  simp only [State.mk.injEq, true_and, and_true]
  funext x
  by_cases h1 : x = u <;> by_cases h2 : x = .op o <;> simp_all


theorem veil_with_st (s : State W) (L : WList W) (o : Nat) (P : PC W) (x : QSt) :
    { s.veil L o P with st := x } = ({ s with st := x } : State W).veil L o P := rfl

theorem goto_crit {s : State W} {o : Nat} {t : Tid} {p : PC W} (hp : p.crit = false)
    (hcr : ∀ u, u ≠ .op o → (s.pc u).crit = false) :
    ∀ u, u ≠ .op o → ((s.goto t p).pc u).crit = false := by
  intro u hu
  simp only [State.goto]
  split
  · exact hp
  · exact hcr u hu

theorem fail_veil {s : State W} {L : WList W} {o : Nat} {P : PC W} {t : Tid} {evs : Trace W}
    (hlock : s.lock = some (.op o)) (ht : t ≠ .op o) :
    fail (s.veil L o P) t evs = ((fail s t evs).1.veil L o P, (fail s t evs).2) ∧
      (fail s t evs).1.list = s.list ∧ (fail s t evs).1.pc (.op o) = s.pc (.op o) ∧
      (fail s t evs).1.lock = s.lock := by
  have h1 : (s.veil L o P).lock = s.lock := rfl
  unfold fail
  rw [h1, State.veil_goto _ _ _ _ ht]
  refine ⟨rfl, rfl, ?_, ?_⟩
  · simp [State.goto, Ne.symm ht]
  · simp only [hlock, Option.some.injEq]
    rw [if_neg (Ne.symm ht)]

/-- What another thread does while `o` is in the middle of a dequeue does not depend on how far
`o` has got. -/
theorem step_veil {s s' : State W} {L : WList W} {o : Nat} {P : PC W} {act : Act W} {evs : Trace W}
    (hlock : s.lock = some (.op o)) (hcr : ∀ u, u ≠ .op o → (s.pc u).crit = false)
    (hoff : (s.pc (.op o)).crit = true)
    (hst : ∀ n, (L.node n).state = (s.list.node n).state)
    (hact : ∀ spur, act ≠ .op o spur)
    (h : step c s act = some (s', evs)) :
    step c (s.veil L o P) act = some (s'.veil L o P, evs) ∧ s'.list = s.list ∧
      s'.pc (.op o) = s.pc (.op o) ∧ s'.lock = s.lock ∧ (∀ u, u ≠ .op o → (s'.pc u).crit = false) ∧
      ∀ e ∈ evs, e.byOp ≠ some o := by
  have hnode : ∀ n, (Tid.node n) ≠ .op o := fun n h => by cases h
  have hpc : ∀ n, (s.veil L o P).pc (.node n) = s.pc (.node n) := fun n =>
    s.veil_pc L o P (hnode n)
  have hgoto : ∀ n p, (s.veil L o P).goto (.node n) p = (s.goto (.node n) p).veil L o P := fun n p =>
    s.veil_goto L o P (hnode n) p
  have hself : ∀ n p, (s.goto (.node n) p).pc (.op o) = s.pc (.op o) := by
    intro n p; simp [State.goto]
  have vl : (s.veil L o P).lock = s.lock := rfl
  have vs : (s.veil L o P).st = s.st := rfl
  have vb : (s.veil L o P).borrows = s.borrows := rfl
  have vr : (s.veil L o P).rxGone = s.rxGone := rfl
  have vn : ∀ n, ((s.veil L o P).list.node n).state = (s.list.node n).state := hst
  cases act with
  | start n v =>
    simp only [step, hpc] at h ⊢
    split at h
    · split at h <;> cases h
      rename_i hm
      rw [if_pos hm, hgoto]
      exact ⟨rfl, rfl, hself _ _, rfl, goto_crit rfl hcr, by simp [Event.byOp]⟩
    · cases h
  | cont n v =>
    simp only [step, hpc] at h ⊢
    split at h
    · split at h <;> cases h
      rename_i hm
      rw [if_pos hm, hgoto]
      exact ⟨rfl, rfl, hself _ _, rfl, goto_crit rfl hcr, by simp [Event.byOp]⟩
    · cases h
  | drop n =>
    simp only [step, hpc] at h ⊢
    split at h
    · cases h
      rw [hgoto]
      exact ⟨rfl, rfl, hself _ _, rfl, goto_crit rfl hcr, by simp [Event.byOp]⟩
    · cases h
      rw [hgoto]
      exact ⟨rfl, rfl, hself _ _, rfl, goto_crit rfl hcr, by simp [Event.byOp]⟩
    · cases h
  | giveUp n =>
    simp only [step, hpc] at h ⊢
    split at h
    · cases h
      rw [hgoto]
      exact ⟨rfl, rfl, hself _ _, rfl, goto_crit rfl hcr, by simp [Event.byOp]⟩
    · cases h
  | notify o' =>
    have ho : Tid.op o' ≠ .op o := by
      intro he
      simp only [step, he] at h
      split at h
      · rename_i hp; rw [hp] at hoff; cases hoff
      · cases h
    simp only [step, s.veil_pc L o P ho, s.veil_goto L o P ho, vr, vb] at h ⊢
    split at h
    · split at h <;> cases h
      rename_i hm
      rw [if_neg hm]
      refine ⟨rfl, rfl, ?_, rfl, goto_crit rfl hcr, fun e he => by
        simp at he <;> (try rcases he with rfl | rfl) <;> (try subst he) <;> simp [Event.byOp] <;> exact fun hc => ho (by rw [hc])⟩
      simp [State.goto, Ne.symm ho]
    · cases h
  | close o' =>
    have ho : Tid.op o' ≠ .op o := by
      intro he
      simp only [step, he] at h
      split at h
      · rename_i hp _; rw [hp] at hoff; cases hoff
      · cases h
    simp only [step, s.veil_pc L o P ho, s.veil_goto L o P ho, vr, vb] at h ⊢
    split at h
    · split at h <;> cases h
      rename_i hm
      rw [if_neg hm]
      refine ⟨rfl, rfl, ?_, rfl, goto_crit rfl hcr, fun e he => by
        simp at he <;> (try rcases he with rfl | rfl) <;> (try subst he) <;> simp [Event.byOp] <;> exact fun hc => ho (by rw [hc])⟩
      simp [State.goto, Ne.symm ho]
    · cases h
  | node n spur =>
    have hc := hcr (.node n) (hnode n)
    simp only [step, nodeStep, hpc] at h ⊢
    split at h <;> rename_i hp <;> (try rw [hp] at hc) <;> try (cases hc; done)
    · -- startCas
      simp only [Option.some.injEq] at h ⊢
      have e : startCas (s.veil L o P) n ‹_› =
          ((startCas s n ‹_›).1.veil L o P, (startCas s n ‹_›).2) := by
        unfold startCas
        rw [vs]
        split <;> simp only [hgoto] <;> rfl
      rw [e, h]
      unfold startCas at h
      split at h <;> cases h
      all_goals exact ⟨rfl, rfl, by simp [State.goto], rfl, goto_crit rfl hcr, by simp [Event.byOp]⟩
    · unfold acquire at h; rw [hlock] at h; cases h
    · -- contLoad
      simp only [Option.some.injEq] at h ⊢
      obtain ⟨h1, h2, h3, h4⟩ := fail_veil (L := L) (P := P) (evs := []) hlock (hnode n)
      have e : contLoad c (s.veil L o P) n ‹_› =
          ((contLoad c s n ‹_›).1.veil L o P, (contLoad c s n ‹_›).2) := by
        unfold contLoad
        rw [vn]
        split
        · simp only [hgoto]
        · simp only [hgoto]
        · simp only [hgoto]
        · split
          · exact h1
          · simp only [hgoto]
      rw [e, h]
      unfold contLoad at h
      split at h
      · cases h; exact ⟨rfl, rfl, hself _ _, rfl, goto_crit rfl hcr, by simp [Event.byOp]⟩
      · cases h; exact ⟨rfl, rfl, hself _ _, rfl, goto_crit rfl hcr, by simp [Event.byOp]⟩
      · cases h; exact ⟨rfl, rfl, hself _ _, rfl, goto_crit rfl hcr, by simp [Event.byOp]⟩
      · split at h
        · rw [h] at h1 h2 h3 h4
          exact ⟨rfl, h2, h3, h4, by cases h; exact goto_crit rfl hcr, by cases h; simp [Event.byOp]⟩
        · cases h; exact ⟨rfl, rfl, hself _ _, rfl, goto_crit rfl hcr, by simp [Event.byOp]⟩
    · unfold acquire at h; rw [hlock] at h; cases h
    · -- remCheck
      simp only [Option.some.injEq] at h ⊢
      have e : remCheck (s.veil L o P) n = ((remCheck s n).1.veil L o P, (remCheck s n).2) := by
        unfold remCheck
        rw [vn]
        split <;> simp only [hgoto]
      rw [e, h]
      unfold remCheck at h
      split at h <;> cases h
      all_goals exact ⟨rfl, rfl, hself _ _, rfl, goto_crit rfl hcr, by simp [Event.byOp]⟩
    · unfold acquire at h; rw [hlock] at h; cases h
    · cases h
  | op o' spur =>
    have ho : Tid.op o' ≠ .op o := by
      intro he; cases he; exact hact spur rfl
    have hs' : ∀ p, (s.goto (.op o') p).pc (.op o) = s.pc (.op o) := by
      intro p; simp [State.goto, Ne.symm ho]
    have hc := hcr (.op o') ho
    simp only [step, opStep, s.veil_pc L o P ho] at h ⊢
    split at h <;> rename_i hp <;> (try rw [hp] at hc) <;> try (cases hc; done)
    · cases h; rw [s.veil_goto L o P ho]; exact ⟨rfl, rfl, hs' _, rfl, goto_crit rfl hcr, fun e he => by
        simp at he <;> (try rcases he with rfl | rfl) <;> (try subst he) <;> simp [Event.byOp] <;> exact fun hc => ho (by rw [hc])⟩
    · -- nLoop
      simp only [Option.some.injEq] at h ⊢
      have e : nLoop (s.veil L o P) o' ‹_› spur =
          ((nLoop s o' ‹_› spur).1.veil L o P, (nLoop s o' ‹_› spur).2) := by
        unfold nLoop State.endNotify
        rw [vs, vb]
        simp only [s.veil_goto L o P ho]
        split
        · split <;> rfl
        · rfl
      rw [e, h]
      unfold nLoop State.endNotify at h
      split at h
      · split at h <;> cases h
        · exact ⟨rfl, rfl, hs' _, rfl, goto_crit rfl hcr, fun e he => by
        simp at he <;> (try rcases he with rfl | rfl) <;> (try subst he) <;> simp [Event.byOp] <;> exact fun hc => ho (by rw [hc])⟩
        · exact ⟨rfl, rfl, hs' _, rfl, goto_crit rfl hcr, fun e he => by
        simp at he <;> (try rcases he with rfl | rfl) <;> (try subst he) <;> simp [Event.byOp] <;> exact fun hc => ho (by rw [hc])⟩
      · cases h; exact ⟨rfl, rfl, hs' _, rfl, goto_crit rfl hcr, fun e he => by
        simp at he <;> (try rcases he with rfl | rfl) <;> (try subst he) <;> simp [Event.byOp] <;> exact fun hc => ho (by rw [hc])⟩
    · unfold acquire at h; rw [hlock] at h; cases h
    · -- nWake
      simp only [Option.some.injEq] at h ⊢
      unfold State.endNotify at h ⊢
      rw [vb]
      simp only [s.veil_goto L o P ho]
      cases h; exact ⟨rfl, rfl, hs' _, rfl, goto_crit rfl hcr, fun e he => by
        simp at he <;> (try rcases he with rfl | rfl) <;> (try subst he) <;> simp [Event.byOp] <;> exact fun hc => ho (by rw [hc])⟩
    · cases h; rw [s.veil_goto L o P ho]; exact ⟨rfl, rfl, hs' _, rfl, goto_crit rfl hcr, fun e he => by
        simp at he <;> (try rcases he with rfl | rfl) <;> (try subst he) <;> simp [Event.byOp] <;> exact fun hc => ho (by rw [hc])⟩
    · unfold acquire at h; rw [hlock] at h; cases h
    · cases h

/-! ## Simulation -/

theorem deqDone_eq_veil (s : State W) (o t : Nat) :
    deqDone s o t = s.veil (s.list.unlinkLast t) o (afterDeq (s.pc (.op o)) t (s.list.node t).waiter) :=
  rfl

/-- What is known while a call is in the middle of a dequeue. -/
structure Gap (s : State W) (o t : Nat) : Prop where
  lock : s.lock = some (.op o)
  pc : (s.pc (.op o)).deqState.isSome = true
  others : ∀ u, u ≠ .op o → (s.pc u).crit = false
  waiter : (s.list.node t).waiter.isSome = true

theorem PC.deqState_cases {p : PC W} (h : p.deqState.isSome = true) :
    p = .nMatch .waiting ∨ p = .cLoop := by
  unfold PC.deqState at h
  split at h
  · exact .inl rfl
  · exact .inr rfl
  · cases h

theorem PC.deqState_crit {p : PC W} (h : p.deqState.isSome = true) : p.crit = true := by
  rcases PC.deqState_cases h with rfl | rfl <;> rfl

theorem Gap.crit {s : State W} {o t : Nat} (h : Gap s o t) : (s.pc (.op o)).crit = true :=
  PC.deqState_crit h.pc

/-- The second half of a dequeue does not fail. -/
theorem Gap.rest {s : State W} {o t : Nat} (h : Gap s o t) :
    deqRest c s o t = (deqDone s o t,
      .touch (.op o) t :: (s.list.node t).prev.toList.map (.touch (.op o))) := by
  unfold deqRest
  split
  · rename_i hw; have := h.waiter; rw [hw] at this; cases this
  · rfl

theorem quiet_append (a b : Trace W) : quiet (a ++ b) = quiet a ++ quiet b := by
  simp [quiet]

theorem quiet_touch (t : Tid) (ns : List Nat) : quiet (ns.map (Event.touch (W := W) t)) = [] := by
  simp [quiet]

/-- The relation between an execution with the two-step dequeue and one with the one-step
dequeue. -/
structure Sim (c : Config W) (tr : Trace W) (f : FState W) (tr' : Trace W) : Prop where
  exec : Exec c tr' f.abs
  eq : quiet tr' = quiet tr
  gap : ∀ o t, f.half = some (o, t) → Gap f.q o t
  rep : ∀ o t, f.half = some (o, t) → Rep f.q.list (queueOf tr' ++ [t])

/-- A step of the coarse queue by a thread other than the one in the middle of a dequeue. -/
theorem Sim.other {tr tr' : Trace W} {f : FState W} (h : Sim c tr f tr') {act : Act W} {s' : State W}
    {evs : Trace W} (hact : ∀ o t spur, f.half = some (o, t) → act ≠ .op o spur)
    (hs : step c f.q act = some (s', evs)) :
    step c f.abs act = some ((⟨s', f.half⟩ : FState W).abs, evs) ∧
      Sim c (tr ++ evs) ⟨s', f.half⟩ (tr' ++ evs) ∧
      ∀ o t, f.half = some (o, t) → ∀ e ∈ evs, e.byOp ≠ some o := by
  cases hh : f.half with
  | none =>
    have he : f.abs = f.q := by unfold FState.abs; rw [hh]
    rw [he]
    refine ⟨by simpa [FState.abs] using hs, ⟨?_, ?_, by simp, by simp⟩, by simp⟩
    · have := h.exec
      rw [he] at this
      exact .step this hs
    · rw [quiet_append, quiet_append, h.eq]
  | some p =>
    obtain ⟨o, t⟩ := p
    have g := h.gap o t hh
    have he : f.abs = deqDone f.q o t := by unfold FState.abs; rw [hh]
    obtain ⟨h1, h2, h3, h4, h5, h7⟩ := step_veil (L := f.q.list.unlinkLast t)
      (P := afterDeq (f.q.pc (.op o)) t (f.q.list.node t).waiter) g.lock g.others g.crit
      (fun n => WList.unlinkLast_state _ _ _) (fun spur => hact o t spur hh) hs
    have h6 : step c f.abs act = some ((⟨s', some (o, t)⟩ : FState W).abs, evs) := by
      rw [he, deqDone_eq_veil, h1]
      simp only [FState.abs, deqDone_eq_veil, h2, h3]
    have h8 : queueOf (tr' ++ evs) = queueOf tr' := by
      have e1 := (Exec.step h.exec h6).inv.rep
      have e2 := h.exec.inv.rep
      rw [he] at e2
      simp only [FState.abs, deqDone, State.goto, h2] at e1 e2
      exact e1.unique e2
    refine ⟨h6, ⟨.step h.exec h6, by rw [quiet_append, quiet_append, h.eq], ?_, ?_⟩, ?_⟩ <;> rintro o' t' he'
    · simp only [Option.some.injEq, Prod.mk.injEq] at he'
      obtain ⟨rfl, rfl⟩ := he'
      exact ⟨by rw [h4]; exact g.lock, by rw [h3]; exact g.pc, h5, by rw [h2]; exact g.waiter⟩
    · simp only [Option.some.injEq, Prod.mk.injEq] at he'
      obtain ⟨rfl, rfl⟩ := he'
      rw [h8, h2]
      exact h.rep _ _ hh
    · simp only [Option.some.injEq, Prod.mk.injEq] at he'
      obtain ⟨rfl, rfl⟩ := he'
      exact h7

/-- The first half of a dequeue. -/
theorem Sim.swap {tr tr' : Trace W} {f : FState W} (h : Sim c tr f tr') {o t : Nat} {ns : QSt}
    (hh : f.half = none) (hp : (f.q.pc (.op o)).deqState = some ns) (ht : f.q.list.tail = some t)
    {f' : FState W} {evs : Trace W} (hs : deqSwap c f.q o t ns = (f', evs)) :
    evs = [.touch (.op o) t, .deq o t] ∧ f'.half = some (o, t) ∧
    ∃ evs', step c f.abs (.op o false) = some (f'.abs, evs') ∧ quiet evs' = quiet evs ∧
      Event.touch (.op o) t ∈ evs' ∧ Sim c (tr ++ evs) f' (tr' ++ evs') := by
  have he : f.abs = f.q := by unfold FState.abs; rw [hh]
  have hx := h.exec
  rw [he] at hx ⊢
  have hi := hx.inv
  have hcrit : (f.q.pc (.op o)).crit = true := PC.deqState_crit (by rw [hp]; rfl)
  have hdq := hi.dequeue ns
  rcases hdq with ⟨h1, _⟩ | ⟨q', x, v, hq, hw, hst, hval, hok, htou, hrep, _, _, _, _, _⟩
  · have := hi.rep.tail; rw [h1, ht] at this; cases this
  have hxt : x = t := by
    have := hi.rep.tail
    rw [hq, ht] at this
    simpa using this.symm
  subst hxt
  unfold deqSwap at hs
  rw [if_neg (fun hc => hc.2 hst)] at hs
  simp only [Prod.mk.injEq] at hs
  obtain ⟨rfl, rfl⟩ := hs
  have hstep : step c f.q (.op o false) = some ((⟨{ f.q with list := f.q.list.set x fun nd =>
      { nd with state := ns } }, some (o, x)⟩ : FState W).abs,
      (f.q.list.dequeue ns).touched.map (.touch (.op o)) ++ [.deq o x]) := by
    simp only [FState.abs, deqDone, WList.unlinkLast_set _ _ ht, WList.set_node_same, hw]
    rcases PC.deqState_cases (p := f.q.pc (.op o)) (by rw [hp]; rfl) with hpc | hpc
    · rw [hpc] at hp
      simp only [PC.deqState, Option.some.injEq] at hp
      subst hp
      simp only [step, opStep, hpc, nMatch, hok, hval, taken, deqEvents, Option.isSome_some, and_self,
        not_true, and_false, if_false, afterDeq]
    · rw [hpc] at hp
      simp only [PC.deqState, Option.some.injEq] at hp
      subst hp
      have hne : f.q.list.isEmpty = false := by simp [WList.isEmpty, ht]
      simp only [step, opStep, hpc, cLoop, hok, hval, taken, deqEvents, hne, afterDeq]
      simp
  have hquiet : quiet ((f.q.list.dequeue ns).touched.map (.touch (.op o)) ++ [.deq o x]) =
      quiet (W := W) [.touch (.op o) x, .deq o x] := by
    rw [quiet_append, quiet_touch]; rfl
  refine ⟨rfl, rfl, (f.q.list.dequeue ns).touched.map (.touch (.op o)) ++ [.deq o x], ?_, ?_, ?_, ?_⟩
  · exact hstep
  · exact hquiet
  · rw [htou]; simp
  · refine ⟨.step (he ▸ hx) (by rw [he]; exact hstep), by rw [quiet_append, hquiet, quiet_append, h.eq], ?_, ?_⟩ <;>
      rintro o' t' ho <;> simp only [Option.some.injEq, Prod.mk.injEq] at ho <;>
      obtain ⟨rfl, rfl⟩ := ho
    refine ⟨(hi.lockC _).2 hcrit, by simp only [hp]; rfl, ?_, ?_⟩
    · intro u hu
      cases hc : (f.q.pc u).crit
      · rfl
      · exact absurd (hi.excl hc hcrit) hu
    · simp [hw]
    · have e1 := (Exec.step hx hstep).inv.rep
      simp only [FState.abs, deqDone, State.goto, WList.unlinkLast_set _ _ ht] at e1
      rw [e1.unique hrep, ← hq]
      exact hi.rep.set x (fun nd => { nd with state := ns }) (fun _ => rfl) (fun _ => rfl)

/-- Every step of the fine queue is matched by at most one step of the coarse queue. -/
theorem Sim.step {tr tr' : Trace W} {f f' : FState W} (h : Sim c tr f tr') {act : Act W}
    {evs : Trace W} (hs : fstep c f act = some (f', evs)) :
    ∃ tr'', Sim c (tr ++ evs) f' tr'' := by
  have lift : ∀ act : Act W, (∀ o t spur, f.half = some (o, t) → act ≠ .op o spur) →
      (Queue.step c f.q act).map (fun r => ((⟨r.1, f.half⟩ : FState W), r.2)) = some (f', evs) →
      ∃ tr'', Sim c (tr ++ evs) f' tr'' := by
    intro act ha hm
    cases hq : Queue.step c f.q act with
    | none => rw [hq] at hm; cases hm
    | some r =>
      rw [hq] at hm
      cases hm
      exact ⟨_, (h.other ha hq).2.1⟩
  cases act with
  | op o spur =>
    simp only [fstep] at hs
    split at hs
    · rename_i o' t hh
      split at hs
      · rename_i ho
        subst ho
        have g := h.gap _ _ hh
        rw [g.rest] at hs
        cases hs
        have he : f.abs = deqDone f.q o' t := by unfold FState.abs; rw [hh]
        refine ⟨tr', ?_, ?_, by simp, by simp⟩
        · have := h.exec; rw [he] at this; exact this
        · rw [quiet_append, h.eq]
          have : quiet (Event.touch (W := W) (.op o') t ::
              (f.q.list.node t).prev.toList.map (.touch (.op o'))) = [] :=
            quiet_touch (.op o') (t :: (f.q.list.node t).prev.toList)
          rw [this, List.append_nil]
      · rename_i ho
        refine lift (.op o spur) ?_ hs
        intro o2 t2 sp h2 h3
        rw [hh] at h2
        cases h2; cases h3
        exact ho rfl
    · rename_i hh
      split at hs
      · rename_i ns t hp ht
        simp only [Option.some.injEq] at hs
        obtain ⟨_, _, evs', _, _, _, h1⟩ := h.swap hh hp ht hs
        exact ⟨_, h1⟩
      · exact lift (.op o spur) (fun o t sp h2 => by rw [hh] at h2; cases h2) hs
  | start n v => exact lift (.start n v) (fun _ _ _ _ h3 => by cases h3) hs
  | cont n v => exact lift (.cont n v) (fun _ _ _ _ h3 => by cases h3) hs
  | drop n => exact lift (.drop n) (fun _ _ _ _ h3 => by cases h3) hs
  | giveUp n => exact lift (.giveUp n) (fun _ _ _ _ h3 => by cases h3) hs
  | notify o => exact lift (.notify o) (fun _ _ _ _ h3 => by cases h3) hs
  | close o => exact lift (.close o) (fun _ _ _ _ h3 => by cases h3) hs
  | node n spur => exact lift (.node n spur) (fun _ _ _ _ h3 => by cases h3) hs

/-- Every execution with the two-step dequeue is, apart from accesses to memory, an execution
with the one-step dequeue. -/
theorem FExec.sim {tr : Trace W} {f : FState W} (h : FExec c tr f) : ∃ tr', Sim c tr f tr' := by
  induction h with
  | init => exact ⟨[], .init, rfl, by simp [FState.init], by simp [FState.init]⟩
  | step _ hs ih =>
    obtain ⟨tr', h1⟩ := ih
    exact h1.step hs

end Thingbuf.Queue
