import Verif.QueueFineProps

/-!
# The list of waiting senders belongs to the holder of its lock (C61)

The list, and the links and wakers in its nodes, are behind an `UnsafeCell` (`src/wait/queue.rs:120-147`): only the
mutex keeps two threads from using them at once. Reading and writing are stated as effects: a step that neither
changes them nor depends on them does not use them.
-/

namespace Thingbuf.Queue

variable {W : Type} {c : Config W} {tr : Trace W} {f : FState W}

/-- The queue with another list. Scaffolding of the model, no counterpart in the source. -/
def State.withList (s : State W) (L : WList W) : State W := { s with list := L }

/-- The queue with another list. Scaffolding of the model, no counterpart in the source. -/
def FState.withList (f : FState W) (L : WList W) : FState W := { f with q := f.q.withList L }

/-- The atomic state of the node that the thread owns is the same in both lists. That of a node is an atomic field,
read without the lock, `src/wait/queue.rs:151` and `310`. -/
def SameState (t : Tid) (L L' : WList W) : Prop :=
  ∀ n, t = .node n → (L.node n).state = (L'.node n).state

theorem step_withList {s : State W} {L : WList W} {act : Act W} (hc : (s.pc act.tid).crit = false)
    (hst : SameState act.tid L s.list) :
    step c (s.withList L) act = (step c s act).map fun r => (r.1.withList L, r.2) := by
  have vp : ∀ u, (s.withList L).pc u = s.pc u := fun _ => rfl
  have vs : (s.withList L).st = s.st := rfl
  have vl : (s.withList L).lock = s.lock := rfl
  have vb : (s.withList L).borrows = s.borrows := rfl
  have vr : (s.withList L).rxGone = s.rxGone := rfl
  cases act with
  | start n v => simp only [step, vp]; split <;> (try split) <;> rfl
  | cont n v => simp only [step, vp]; split <;> (try split) <;> rfl
  | drop n => simp only [step, vp]; split <;> rfl
  | giveUp n => simp only [step, vp]; split <;> rfl
  | notify o => simp only [step, vp, vr]; split <;> (try split) <;> rfl
  | close o => simp only [step, vp, vr, vb]; split <;> (try split) <;> rfl
  | node n spur =>
    have vn : ((s.withList L).list.node n).state = (s.list.node n).state := hst n rfl
    simp only [Act.tid] at hc
    simp only [step, nodeStep, vp]
    split <;> rename_i hp <;> (try rw [hp] at hc) <;> try (cases hc; done)
    · unfold startCas; rw [vs]; split <;> rfl
    · unfold acquire; rw [vl]; split <;> rfl
    · unfold contLoad; rw [vn]
      split <;> (try split) <;> rfl
    · unfold acquire; rw [vl]; split <;> rfl
    · unfold remCheck; rw [vn]; split <;> rfl
    · unfold acquire; rw [vl]; split <;> rfl
    · rfl
  | op o spur =>
    simp only [Act.tid] at hc
    simp only [step, opStep, vp]
    split <;> rename_i hp <;> (try rw [hp] at hc) <;> try (cases hc; done)
    · rfl
    · unfold nLoop; rw [vs]; split <;> (try split) <;> rfl
    · unfold acquire; rw [vl]; split <;> rfl
    · rfl
    · rfl
    · unfold acquire; rw [vl]; split <;> rfl
    · rfl

/-- A thread that does not hold the lock is outside of the critical sections, also with the two-step dequeue. -/
theorem FExec.not_crit (h : FExec c tr f) {t : Tid} (hl : f.q.lock ≠ some t) : (f.q.pc t).crit = false := by
  obtain ⟨tr', hs⟩ := h.sim
  cases hc : (f.q.pc t).crit with
  | false => rfl
  | true =>
    refine absurd ?_ hl
    cases hh : f.half with
    | none =>
      have hi := hs.exec.inv
      rw [show f.abs = f.q by unfold FState.abs; rw [hh]] at hi
      exact (hi.lockC t).2 hc
    | some x =>
      obtain ⟨o, n⟩ := x
      have g := hs.gap _ _ hh
      cases Classical.em (t = .op o) with
      | inl e => rw [e]; exact g.lock
      | inr e => rw [g.others t e] at hc; cases hc

/-- **C61**. A thread that does not hold the lock does not use the list of waiting senders: its next step does not
change the list, nor any link or waker in it, and would be the same if all of them were different. (Of the list only the
atomic state of its own node may matter.) -/
theorem C61_list_only_with_lock (h : FExec c tr f) {act : Act W} (hl : f.q.lock ≠ some act.tid) {L : WList W}
    (hst : SameState act.tid L f.q.list) :
    fstep c (f.withList L) act = (fstep c f act).map fun r => (r.1.withList L, r.2) := by
  have hc := h.not_crit hl
  have lift : (step c (f.withList L).q act).map (fun r => ((⟨r.1, (f.withList L).half⟩ : FState W), r.2)) =
      ((step c f.q act).map fun r => ((⟨r.1, f.half⟩ : FState W), r.2)).map fun r => (r.1.withList L, r.2) := by
    rw [show (f.withList L).q = f.q.withList L from rfl, step_withList hc hst]
    cases step c f.q act <;> rfl
  cases act with
  | op o spur =>
    have hd : (f.q.pc (.op o)).deqState = none := by
      cases hp : (f.q.pc (.op o)).deqState with
      | none => rfl
      | some x =>
        have := PC.deqState_crit (p := f.q.pc (.op o)) (by rw [hp]; rfl)
        rw [show (f.q.pc (.op o)).crit = false from hc] at this
        cases this
    have hd' : ((f.withList L).q.pc (.op o)).deqState = none := hd
    simp only [fstep, hd, hd']
    rw [show (f.withList L).half = f.half from rfl]
    split
    · rename_i o' n hh
      split
      · rename_i ho
        obtain ⟨tr', hs⟩ := h.sim
        subst ho
        exact absurd (hs.gap _ _ hh).lock hl
      · exact lift
    · exact lift
  | start n v => exact lift
  | cont n v => exact lift
  | drop n => exact lift
  | giveUp n => exact lift
  | notify o => exact lift
  | close o => exact lift
  | node n spur => exact lift

/-- **C61**. In particular: whoever changes the list, a link or a waker in it holds the lock. -/
theorem C61_list_changed_with_lock (h : FExec c tr f) {act : Act W} {f' : FState W} {evs : Trace W}
    (hs : fstep c f act = some (f', evs)) (hne : f'.q.list ≠ f.q.list) : f.q.lock = some act.tid := by
  refine Classical.byContradiction fun hl => hne ?_
  have := C61_list_only_with_lock h hl (L := f.q.list) (fun _ _ => rfl)
  rw [show f.withList f.q.list = f from rfl, hs] at this
  simp only [Option.map_some, Option.some.injEq, Prod.mk.injEq, and_true] at this
  rw [this]; rfl

theorem step_touch {s s' : State W} {act : Act W} {evs : Trace W} (hs : step c s act = some (s', evs)) {t : Tid}
    {n : Nat} (ht : Event.touch t n ∈ evs) : t = act.tid ∧ (s.pc act.tid).crit = true := by
  have hd : ∀ o x, Event.touch t n ∉ deqEvents (W := W) o x := by
    intro o x; unfold deqEvents; split <;> simp
  cases act with
  | node m spur =>
    simp only [step, nodeStep, Act.tid] at hs ⊢
    split at hs <;> rename_i hp <;> (try cases hs; done) <;> rw [hp] <;> simp only [PC.crit, and_true] <;>
      simp only [Option.some.injEq, startCas, startLoop, startSet, startEnq, contLoad, contReload, contUpd, remCheck,
        remList, remCas, acquire, fail] at hs <;> (repeat' split at hs) <;> cases hs <;>
      simp_all
  | op o spur =>
    simp only [step, opStep, Act.tid] at hs ⊢
    split at hs <;> rename_i hp <;> (try cases hs; done) <;> rw [hp] <;> simp only [PC.crit, and_true] <;>
      simp only [Option.some.injEq, nLoop, nMatch, nStore, nUnlock, cLoop, acquire, fail] at hs <;>
      (repeat' split at hs) <;> cases hs <;> simp_all
  | _ => simp only [step] at hs; (repeat' split at hs) <;> cases hs <;> simp_all

/-- **C61**. And so does whoever accesses the memory of a node as part of the list. -/
theorem C61_touched_with_lock (h : FExec c tr f) {act : Act W} {f' : FState W} {evs : Trace W}
    (hs : fstep c f act = some (f', evs)) {t : Tid} {n : Nat} (ht : Event.touch t n ∈ evs) :
    t = act.tid ∧ f.q.lock = some t := by
  have main : t = act.tid ∧ (f.q.pc act.tid).crit = true := by
    cases act with
    | op o spur =>
      simp only [fstep] at hs
      split at hs
      · rename_i o' m hh
        split at hs
        · rename_i ho
          subst ho
          obtain ⟨tr', hsim⟩ := h.sim
          have g := hsim.gap _ _ hh
          rw [g.rest] at hs
          cases hs
          refine ⟨?_, PC.deqState_crit g.pc⟩
          simp at ht
          rcases ht with ⟨rfl, _⟩ | ⟨_, _, rfl, _⟩ <;> rfl
        · simp only [Option.map_eq_some_iff] at hs
          obtain ⟨r, hr, e⟩ := hs
          cases e
          exact step_touch hr ht
      · split at hs
        · rename_i ns m hp _
          refine ⟨?_, PC.deqState_crit (p := f.q.pc (.op o)) (by rw [hp]; rfl)⟩
          simp only [deqSwap, Option.some.injEq] at hs
          split at hs <;> cases hs
          · simp only [deqFail] at ht
            split at ht <;> simp_all [fail, Act.tid]
          · simp_all [Act.tid]
        · simp only [Option.map_eq_some_iff] at hs
          obtain ⟨r, hr, e⟩ := hs
          cases e
          exact step_touch hr ht
    | _ =>
      simp only [fstep, Option.map_eq_some_iff] at hs
      obtain ⟨r, hr, e⟩ := hs
      cases e
      exact step_touch hr ht
  obtain ⟨rfl, hc⟩ := main
  refine ⟨rfl, Classical.byContradiction fun hl => ?_⟩
  rw [h.not_crit hl] at hc
  cases hc

/-- The hypotheses are met: a `notify` holds the lock, in the middle of dequeuing node 1, whose owner has begun to drop
its future and takes a step without the lock; and then the `notify` changes the list. -/
example : ∃ tr f, FExec (demoC true) tr f ∧ f.q.lock = some (.op 0) ∧
    (∃ f' evs, fstep (demoC true) f (.node 1 false) = some (f', evs) ∧ evs = [.free 1]) ∧
    ∃ f' evs, fstep (demoC true) f (.op 0 false) = some (f', evs) ∧ f'.q.list ≠ f.q.list ∧ .touch (.op 0) 1 ∈ evs := by
  have h : ((frunActs (demoC true) FState.init (aStart 1 10 6 ++ aNotify 0 4 ++ [.drop 1])).map fun r =>
      (r.1.q.lock, (fstep (demoC true) r.1 (.node 1 false)).map Prod.snd, r.1.q.list.tail,
        (fstep (demoC true) r.1 (.op 0 false)).map fun r' => (r'.1.q.list.tail, r'.2))) =
      some (some (.op 0), some [.free 1], some 1, some (none, [.touch (.op 0) 1])) := by rfl
  simp only [Option.map_eq_some_iff, Prod.exists, Prod.mk.injEq] at h
  obtain ⟨f, tr, h1, h2, ⟨f1, e1, h3, rfl⟩, h4, f2, e2, h5, h6, rfl⟩ := h
  refine ⟨_, f, by simpa using FExec.init.of_frunActs h1, h2, ⟨f1, _, h3, rfl⟩, f2, _, h5, ?_, by simp⟩
  intro e
  rw [e, h4] at h6
  cases h6

end Thingbuf.Queue
