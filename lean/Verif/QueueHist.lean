import Verif.QueueGood

/-!
# Histories of the wait queue

Helper lemmas for `QueueProps`: what each thread has done so far, by program counter.
-/

namespace Thingbuf.Queue

variable {W : Type} {c : Config W}

/-- One transition of an execution. -/
theorem ExecM.good {b : Bool} {tr : Trace W} {s s' : State W} {act : Act W} {evs : Trace W} (h : ExecM b c tr s)
    (hs : Queue.step c s act = some (s', evs)) :
    ∃ t p st lk l b rx, s' = s.after t p st lk l b rx ∧ Tr c s t p st lk l b rx evs ∧
      Good c s (queueOf tr) t p st evs := by
  obtain ⟨t, p, st, lk, l, b, rx, h1, h2⟩ := step_tr hs
  exact ⟨t, p, st, lk, l, b, rx, h1, h2, h.inv.good h2⟩

/-- Pairs of events of a `close` for each node it took. -/
def closePairs (o : Nat) : List (Nat × W) → Trace W
  | [] => []
  | (n, v) :: l => .deq o n :: .wake o n v :: closePairs o l

theorem closePairs_append (o : Nat) (l l' : List (Nat × W)) :
    closePairs o (l ++ l') = closePairs o l ++ closePairs o l' := by
  induction l with
  | nil => rfl
  | cons x l ih => obtain ⟨n, v⟩ := x; simp [closePairs, ih]

/-- The events of call `o`, by its program counter. -/
def OpHist (c : Config W) (o : Nat) (p : PC W) (es : Trace W) : Prop :=
  match p with
  | .nLoad | .nLoop _ | .nLock _ | .nMatch _ => es = [.callNotify o]
  | .nStore none | .nUnlock none => es = [.callNotify o] ∧ c.debug = false
  | .nStore (some (n, _)) | .nUnlock (some (n, _)) | .nWake n _ => es = [.callNotify o, .deq o n]
  | .cSwap => es = [.callClose o]
  | .cLock => es = [.callClose o, .closing o]
  | .cLoop => ∃ l, es = [.callClose o, .closing o] ++ closePairs o l
  | .cWake n _ => ∃ l, es = [.callClose o, .closing o] ++ closePairs o l ++ [.deq o n]
  | .panicked => es = [.callNotify o, .assertFailed (.op o)] ∧ c.debug = true
  | .done =>
    es = [.callNotify o, .store o, .retNotify o false] ∨
    (∃ n v, es = [.callNotify o, .deq o n, .wake o n v, .retNotify o true]) ∨
    (es = [.callNotify o, .retNotify o false] ∧ c.debug = false) ∨
    ∃ l, es = [.callClose o, .closing o] ++ closePairs o l ++ [.retClose o]
  | .off => es = []
  | _ => False

theorem opEvs_append (tr evs : Trace W) (o : Nat) : opEvs (tr ++ evs) o = opEvs tr o ++ opEvs evs o := by
  simp [opEvs]

theorem opEvs_touch (t : Tid) (ns : List Nat) (o : Nat) :
    opEvs (ns.map (Event.touch (W := W) t)) o = [] := by
  simp [opEvs, Event.byOp]

theorem Good.opEvs_other {s : State W} {q : List Nat} {t : Tid} {p : PC W} {st : QSt} {evs : Trace W}
    (hg : Good c s q t p st evs) {o : Nat} (ht : t ≠ .op o) : opEvs evs o = [] := by
  cases hg <;> simp_all [opEvs, Event.byOp]

theorem ExecM.opHist {b : Bool} {tr : Trace W} {s : State W} (h : ExecM b c tr s) (o : Nat) :
    OpHist c o (s.pc (.op o)) (opEvs tr o) := by
  induction h with
  | init => simp [State.init, OpHist, opEvs]
  | @step tr s s' act evs h hs ih =>
    obtain ⟨t, p, st, lk, l, b, rx, rfl, ht, hg⟩ := h.good hs
    rw [opEvs_append]
    simp only [State.after]
    clear ht hs
    by_cases hto : t = .op o
    · subst hto
      rw [if_pos rfl]
      cases hg
      case cDeq x v q' ns hq hv hn hst hpc =>
        rw [hpc] at ih
        obtain ⟨l, ih⟩ := ih
        rw [ih, opEvs_append, opEvs_touch]
        exact ⟨l, by simp [opEvs, Event.byOp]⟩
      case cWake n v hst hpc =>
        rw [hpc] at ih
        obtain ⟨l, ih⟩ := ih
        rw [ih]
        exact ⟨l ++ [(n, v)], by simp [opEvs, Event.byOp, closePairs_append, closePairs]⟩
      case cRet hq hst hpc =>
        rw [hpc] at ih
        obtain ⟨l, ih⟩ := ih
        rw [ih]
        exact .inr (.inr (.inr ⟨l, by simp [opEvs, Event.byOp]⟩))
      case acqClose hlk hpc =>
        rw [hpc] at ih
        simp only [OpHist] at ih
        rw [ih]
        exact ⟨[], by simp [opEvs, closePairs]⟩
      case nStoreEmpty w hq hpc => rw [hpc] at ih; cases w <;> simpa [OpHist, opEvs] using ih
      case nStoreSkip w hq hpc => rw [hpc] at ih; cases w <;> simpa [OpHist, opEvs] using ih
      all_goals simp_all [OpHist, opEvs, Event.byOp]
    · rw [hg.opEvs_other hto, if_neg (fun h => hto h.symm)]
      simpa using ih
  | @stale tr s t p _ h hs ih =>
    have hp := hs.pcs
    by_cases hto : .op o = t
    · subst hto
      rw [State.goto_self]
      generalize s.pc (.op o) = x at hp ih
      cases hp
      exact ih
    · rw [State.goto_ne _ _ hto]; exact ih

/-! ## The life of a node -/

/-- What the owner of node `n` has done, by its program counter. -/
def NodeLife (p : PC W) (n : Nat) (tr : Trace W) : Prop :=
  match p with
  | .gone => .free n ∈ tr ∧ .callDrop n ∈ tr ∧ .giveUp n ∉ tr
  | .abandoned => .free n ∈ tr ∧ .callDrop n ∉ tr ∧ .giveUp n ∈ tr ∧ .rem n ∉ tr
  | .remCheck | .remLock | .remList =>
    .free n ∉ tr ∧ .callDrop n ∈ tr ∧ .giveUp n ∉ tr ∧ .rem n ∉ tr
  | .remCas | .remUnlock => .free n ∉ tr ∧ .callDrop n ∈ tr ∧ .giveUp n ∉ tr ∧ .rem n ∈ tr
  | _ => .free n ∉ tr ∧ .callDrop n ∉ tr ∧ .giveUp n ∉ tr ∧ .rem n ∉ tr

section
variable {s : State W} {q : List Nat} {t : Tid} {p : PC W} {st : QSt} {evs : Trace W}

/-- Only the owner of a node drops it, calls on it, and so on. -/
theorem Good.node_other (hg : Good c s q t p st evs) {n : Nat} (ht : t ≠ .node n) :
    .free n ∉ evs ∧ .callDrop n ∉ evs ∧ .giveUp n ∉ evs ∧ .rem n ∉ evs ∧
      (∀ v, .callStart n v ∉ evs) ∧ (∀ v, .callCont n v ∉ evs) ∧ (∀ v, .enq n v ∉ evs) ∧
      (∀ v, .upd n v ∉ evs) ∧ .consume n ∉ evs ∧ (∀ r, .retStart n r ∉ evs) ∧
      ∀ r, .retCont n r ∉ evs := by
  cases hg <;> simp_all <;> intro h <;> subst h <;> simp_all

end

theorem ExecM.nodeLife {b : Bool} {tr : Trace W} {s : State W} (h : ExecM b c tr s) (n : Nat) :
    NodeLife (s.pc (.node n)) n tr := by
  induction h with
  | init => simp [State.init, NodeLife]
  | @step tr s s' act evs h hs ih =>
    obtain ⟨t, p, st, lk, l, b, rx, rfl, ht, hg⟩ := h.good hs
    simp only [State.after]
    clear ht hs
    by_cases hto : t = .node n
    · subst hto
      rw [if_pos rfl]
      cases hg
      case callStart l hl hpc hq => rw [hpc] at ih; cases l <;> simp_all [NodeLife]
      case callCont l hl hpc => rw [hpc] at ih; cases l <;> simp_all [NodeLife]
      case callDrop l hl hpc hq => rw [hpc] at ih; cases l <;> simp_all [NodeLife]
      all_goals simp_all [NodeLife]
    · obtain ⟨h1, h2, h3, h4, _⟩ := hg.node_other hto
      rw [if_neg (fun h => hto h.symm)]
      unfold NodeLife at ih ⊢
      split at ih <;> simp_all
  | @stale tr s t p _ h hs ih =>
    have hp := hs.pcs
    by_cases hto : .node n = t
    · subst hto
      rw [State.goto_self]
      generalize s.pc (.node n) = x at hp ih
      cases hp <;> exact ih
    · rw [State.goto_ne _ _ hto]; exact ih

end Thingbuf.Queue
