import Verif.QueueEvents

/-!
# What becomes of a notification

Helper lemmas for `ChanSleepProps`: a notification on its way (a `notify` that has not taken effect, a stored notification, a node that
was taken out of the list by `notify`) does not get lost unless `notify` calls overlap.
-/

namespace Thingbuf.Queue

variable {W : Type} {c : Config W} {tr : Trace W} {s s' : State W} {act : Act W} {evs : Trace W}

/-- Program counters of a `notify` that has not taken effect. -/
def PC.early : PC W → Bool
  | .nLoad | .nLoop _ | .nLock _ | .nMatch _ => true
  | _ => false

/-- A stored notification stays until it is consumed. -/
theorem ExecM.stored_stays (h : Exec c tr s) (hs : Queue.step c s act = some (s', evs)) (hno : ∀ o, ¬ Overlapped tr o)
    (hcl : ∀ o, .callClose o ∉ tr) (h1 : s.st = .waking) : s'.st = .waking ∨ ∃ n, .retStart n .notified ∈ evs := by
  obtain ⟨t, p, st, lk, l, b, rx, rfl, ht, hg⟩ := h.good hs
  have hh := fun o => h.opHist o
  have hnst := fun o => h.nStoreSt o
  have hover := fun o => h.overOk o
  simp only [State.after]
  clear ht hs
  cases hg
  case nStoreEmpty o w hpc hq =>
    exfalso
    cases w with
    | none => have := hover o; simp only [OverOk, hpc] at this; exact hno o this
    | some x => have := (hnst o).1 x hpc; rw [h1] at this; cases this
  case cSwap o hpc =>
    exfalso
    have := hh o
    rw [hpc] at this
    have hm : Event.callClose o ∈ opEvs tr o := by rw [this]; simp
    exact hcl o ((mem_opEvs rfl).1 hm)
  case startConsume n v hpc hst => exact .inr ⟨n, by simp⟩
  case loopConsume n v hpc hst => exact .inr ⟨n, by simp⟩
  case loopSet n v hpc hst => rw [h1] at hst; cases hst
  case remEmpty n hpc hq hst => rw [h1] at hst; cases hst
  all_goals first | exact .inl h1 | exact .inl rfl

/-- A `notify` that has not taken effect stores the notification or takes a node out of the list. -/
theorem ExecM.early_step (h : Exec c tr s) (hs : Queue.step c s act = some (s', evs)) (hno : ∀ o, ¬ Overlapped (tr ++ evs) o) {o : Nat}
    (h1 : (s.pc (.op o)).early = true) : (s'.pc (.op o)).early = true ∨ s'.st = .waking ∨
      ∃ n, .deq o n ∈ evs ∧ n ∈ queueOf tr ∧ (s'.list.node n).state = .waking := by
  have hfail := fun (hp : s.pc (.op o) = .nMatch .waiting) (hq : queueOf tr = []) => hno o (h.fail_overlapped hp hq).append
  obtain ⟨t, p, st, lk, l, b, rx, rfl, ht, hg⟩ := h.good hs
  by_cases hto : t = .op o
  · subst hto
    simp only [State.after, if_true]
    have hl : s.pc (.op o) = .nMatch .waiting → l = (s.list.dequeue .waking).list := by
      clear hg hs h hno hfail h1
      intro hp
      cases ht <;> first | rfl | (simp_all; done) | skip
      case acq hl ha => rw [hp] at ha; cases ha
    have hi := h.inv
    clear ht hs
    cases hg
    case deq x v q' ns hq hv hn hst hpc =>
      right; right
      exact ⟨x, by simp, by rw [hq]; simp, by rw [hl hpc]; exact (dequeue_data hi .waking hq).1⟩
    case deqNone hq hd hst hpc => exact (hfail hpc hq).elim
    case deqFail hq hd hst hpc => exact (hfail hpc hq).elim
    case nFast => exact .inr (.inl rfl)
    all_goals first
      | (exfalso; rename_i hpc; rw [hpc] at h1; cases h1; done)
      | (exfalso; rename_i hpc _; rw [hpc] at h1; cases h1; done)
      | (exfalso; rename_i hpc _ _; rw [hpc] at h1; cases h1; done)
      | exact .inl rfl
  · left
    simp only [State.after]
    rw [if_neg (fun h => hto h.symm)]
    exact h1

/-- A node that `notify` took out of the list remembers it until it is enqueued again. -/
theorem ExecM.waking_stays (h : Exec c tr s) (hs : Queue.step c s act = some (s', evs)) {n : Nat} (hp : (s.pc (.node n)).fam = true)
    (h1 : (s.list.node n).state = .waking) : (s'.list.node n).state = .waking := by
  obtain ⟨t, p, st, lk, l, b, rx, rfl, ht, hg⟩ := h.good hs
  have hq : n ∉ queueOf tr := by
    intro hq
    have := h.inv.node n
    generalize s.pc (.node n) = p0 at this hp
    unfold PC.fam at hp
    split at hp <;> simp_all [NodeOk]
  show (l.node n).state = .waking
  rcases h.inv.data ht n with ⟨h2, -⟩ | ⟨v, h2, h3, -⟩ | ⟨v, u, h2, h3, h4, h5, h6, -⟩ |
    ⟨o', q', v, ns, h2, h3, h4, h5, h6, h7, h8, h9⟩ | ⟨o', q', v, ns, h2, h3, h4, h5, h6, h7, h8, h9⟩
  · rw [h2, h1]
  · subst h2; rw [h3] at hp; cases hp
  · rw [h6, h1]
  · exact absurd (by rw [h5]; simp) hq
  · exact absurd (by rw [h5]; simp) hq

/-- A node that `notify` took out of the list: `continue_wait` says "notified". -/
theorem ExecM.waking_cont (h : Exec c tr s) {spur : Bool} {n : Nat} (hs : Queue.step c s (.node n spur) = some (s', evs))
    (h1 : (s.list.node n).state = .waking) {r : Res3} (hr : .retCont n r ∈ evs) : r = .notified := by
  obtain ⟨t, p, st, lk, l, b, rx, rfl, ht, hg⟩ := h.good hs
  have hi := h.inv.node n
  clear ht hs
  cases hg <;> simp_all
  all_goals obtain ⟨rfl, rfl⟩ := hr
  all_goals simp_all [NodeOk]

end Thingbuf.Queue
