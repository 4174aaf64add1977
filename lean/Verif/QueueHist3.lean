import Verif.QueueHist2

/-!
# Histories of the wait queue: waiters, arguments and closing

Helper lemmas for `QueueProps`.
-/

namespace Thingbuf.Queue

variable {W : Type} {c : Config W}

section
variable {s : State W} {q : List Nat} {t : Tid} {p : PC W} {st : QSt} {lk : Option Tid}
  {l : WList W} {b : List Nat} {rx : Bool} {evs : Trace W}

theorem dequeue_data (h : Inv s q) (ns : QSt) {q' : List Nat} {x : Nat} (hq : q = q' ++ [x]) :
    ((s.list.dequeue ns).list.node x).state = ns ∧
      ((s.list.dequeue ns).list.node x).waiter = none ∧
      ∀ m, m ≠ x → ((s.list.dequeue ns).list.node m).state = (s.list.node m).state ∧
        ((s.list.dequeue ns).list.node m).waiter = (s.list.node m).waiter := by
  rcases h.dequeue ns with ⟨rfl, hd⟩ | ⟨q1, y, v, h1, hv, hst, hval, hok, htch, hrep, her, hx, hs, hw, ho⟩
  · simp at hq
  · rw [hq] at h1
    obtain ⟨rfl, h2⟩ := List.append_inj' h1 rfl
    simp only [List.cons.injEq, and_true] at h2
    subst h2
    exact ⟨hs, hw, ho⟩

/-- How a transition changes the state and the waiter of a node. -/
theorem Inv.data (h : Inv s q) (ht : Tr c s t p st lk l b rx evs) (m : Nat) :
    ((l.node m).state = (s.list.node m).state ∧ (l.node m).waiter = (s.list.node m).waiter ∧
      ∀ v, ¬ (t = .node m ∧ s.pc t = .contUpd v)) ∨
    (∃ v, t = .node m ∧ s.pc t = .startSet v ∧ p = .startEnq v) ∨
    (∃ v u, t = .node m ∧ s.pc t = .contUpd v ∧ p = .idle .waiting ∧
      (s.list.node m).waiter = some u ∧ (l.node m).state = (s.list.node m).state ∧
      (l.node m).waiter = some (if c.same u v then u else v) ∧
      evs = [.upd m (if c.same u v then u else v), .retCont m .wait]) ∨
    (∃ o q' v, ∃ ns : List Nat, t = .op o ∧ s.pc t = .nMatch .waiting ∧ p = .nStore (some (m, v)) ∧ q = q' ++ [m] ∧
      (s.list.node m).waiter = some v ∧ (l.node m).state = .waking ∧ (l.node m).waiter = none ∧
      evs = ns.map (.touch (.op o)) ++ [.deq o m]) ∨
    (∃ o q' v, ∃ ns : List Nat, t = .op o ∧ s.pc t = .cLoop ∧ p = .cWake m v ∧ q = q' ++ [m] ∧
      (s.list.node m).waiter = some v ∧ (l.node m).state = .closed ∧ (l.node m).waiter = none ∧
      evs = ns.map (.touch (.op o)) ++ [.deq o m]) := by
  have hg := h.good ht
  cases ht
  case set n v hpc =>
    by_cases hm : m = n
    · subst hm; exact .inr (.inl ⟨v, rfl, hpc, rfl⟩)
    · left; simp [WList.set_node, hm, Ne.symm hm]
  case upd n v hpc =>
    by_cases hm : m = n
    · subst hm
      have hx := h.node m
      rw [hpc] at hx; simp only [NodeOk] at hx
      obtain ⟨u, hu⟩ := Option.isSome_iff_exists.1 hx.2.2
      refine .inr (.inr (.inl ⟨v, u, rfl, hpc, rfl, hu, ?_, ?_, ?_⟩))
      · simp [WList.set_node]
      · simp [WList.set_node, hu, newWaiter]
      · simp [hu, newWaiter]
    · left; simp [WList.set_node, hm, Ne.symm hm]
  case enq n v hpc => exact .inl ⟨(enqueue_data _ _ _).1, (enqueue_data _ _ _).2, by simp [hpc]⟩
  case rem n hpc => exact .inl ⟨((h.remove_rep n).2.2.1 m).1, ((h.remove_rep n).2.2.1 m).2, by simp [hpc]⟩
  case remAssert n hpc ho => rw [(h.remove_rep n).2.1] at ho; cases ho
  case setAssert n v hpc hd hn =>
    have hx := h.node n
    rw [hpc] at hx
    simp only [NodeOk] at hx
    simp [hx] at hn
  case deq o hpc hn =>
    rcases h.dequeue .waking with ⟨hq, hd⟩ | ⟨q', x, v, hq, hv, hst, hval, hok, htch, hrep, her, hx, hs, hw, ho⟩
    · left; rw [hd]; exact ⟨rfl, rfl, by simp⟩
    · by_cases hm : m = x
      · subst hm
        exact .inr (.inr (.inr (.inl ⟨o, q', v, _, rfl, hpc, by rw [hval]; rfl, hq, hv, hs, hw, by rw [hval]; rfl⟩)))
      · exact .inl ⟨(ho m hm).1, (ho m hm).2, by simp⟩
  case deqAssert o hpc hd hn =>
    rcases h.dequeue .waking with ⟨hq, hd⟩ | ⟨q', x, v, hq, hv, hst, hval, hok, htch, hrep, her, hx, hs, hw, ho⟩
    · left; rw [hd]; exact ⟨rfl, rfl, by simp⟩
    · simp [hval, hok, taken] at hn
  case cDeq o n v' hpc he hv' =>
    rcases h.dequeue .closed with ⟨hq, hd⟩ | ⟨q', x, v, hq, hv, hst, hval, hok, htch, hrep, her, hx, hs, hw, ho⟩
    · left; rw [hd]; exact ⟨rfl, rfl, by simp⟩
    · by_cases hm : m = x
      · subst hm
        rw [hval] at hv'
        simp only [taken, Option.some.injEq, Prod.mk.injEq] at hv'
        obtain ⟨rfl, rfl⟩ := hv'
        exact .inr (.inr (.inr (.inr ⟨o, q', v, _, rfl, hpc, rfl, hq, hv, hs, hw, by rw [hval]; rfl⟩)))
      · exact .inl ⟨(ho m hm).1, (ho m hm).2, by simp⟩
  case cAssert o hpc he ho' =>
    rcases h.dequeue .closed with ⟨hq, hd⟩ | ⟨q', x, v, hq, hv, hst, hval, hok, htch, hrep, her, hx, hs, hw, ho⟩
    · left; rw [hd]; exact ⟨rfl, rfl, by simp⟩
    · simp_all
  case cSkip o hpc he hv' =>
    rcases h.dequeue .closed with ⟨hq, hd⟩ | ⟨q', x, v, hq, hv, hst, hval, hok, htch, hrep, her, hx, hs, hw, ho⟩
    · left; rw [hd]; exact ⟨rfl, rfl, by simp⟩
    · rw [hval] at hv'; cases hv'
  case acq hl ha =>
    refine .inl ⟨rfl, rfl, fun v hv => ?_⟩
    rw [hv.2] at ha
    cases ha
  all_goals exact .inl ⟨rfl, rfl, fun v hv => by have h2 := hv.2; clear hv hg; simp_all⟩

end

/-! ## Who gave which waiter -/

theorem given_append (tr evs : Trace W) (n : Nat) :
    given (tr ++ evs) n = evs.foldl (gstep n) (given tr n) := by
  simp [given]

theorem given_touch (t : Tid) (ns : List Nat) (evs : Trace W) (n : Nat) (g : Option W) :
    (ns.map (Event.touch t) ++ evs).foldl (gstep n) g = evs.foldl (gstep n) g := by
  induction ns with
  | nil => rfl
  | cons m ns ih => simpa [gstep] using ih

theorem takenBy_append (tr evs : Trace W) (n : Nat) :
    takenBy (tr ++ evs) n = evs.foldl (tstep n) (takenBy tr n) := by
  simp [takenBy]

theorem takenBy_touch (t : Tid) (ns : List Nat) (evs : Trace W) (n : Nat) (g : Option Nat) :
    (ns.map (Event.touch t) ++ evs).foldl (tstep n) g = evs.foldl (tstep n) g := by
  induction ns with
  | nil => rfl
  | cons m ns ih => simpa [tstep] using ih

section
variable {s : State W} {q : List Nat} {t : Tid} {p : PC W} {st : QSt} {evs : Trace W}

theorem Good.given_change (hg : Good c s q t p st evs) (n : Nat) (g : Option W) :
    evs.foldl (gstep n) g = g ∨
      (∃ v, t = .node n ∧ s.pc t = .startEnq v ∧ evs.foldl (gstep n) g = some v) ∨
      ∃ v, t = .node n ∧ s.pc t = .contUpd v := by
  cases hg
  case enq m v ns hpc hq hns =>
    rw [given_touch]
    by_cases hm : m = n
    · subst hm; exact .inr (.inl ⟨v, rfl, hpc, by simp [gstep]⟩)
    · simp [gstep, hm]
  case upd m v u hpc hw hq =>
    by_cases hm : m = n
    · subst hm; exact .inr (.inr ⟨v, rfl, hpc⟩)
    · simp [gstep, hm]
  all_goals first | exact .inl rfl | (left; rw [given_touch]; rfl)

theorem Good.mem_change (hg : Good c s q t p st evs) {n : Nat} (hn : n ∈ evs.foldl qstep q) :
    n ∈ q ∨ ∃ v, t = .node n ∧ s.pc t = .startEnq v := by
  cases hg
  case enq m v ns hpc hq hns =>
    rw [fold_touch_append] at hn
    simp [qstep] at hn
    rcases hn with rfl | hn
    · exact .inr ⟨v, rfl, hpc⟩
    · exact .inl hn
  case rem m ns hpc hns =>
    rw [fold_touch_append] at hn
    exact .inl (List.mem_of_mem_erase hn)
  case deq o x v q' ns hpc hq hv hns hst =>
    rw [fold_touch_append] at hn
    exact .inl (List.mem_of_mem_erase hn)
  case cDeq o x v q' ns hpc hq hv hns hst =>
    rw [fold_touch_append] at hn
    exact .inl (List.mem_of_mem_erase hn)
  all_goals exact .inl hn

theorem Good.enq_waiting (hg : Good c s q t p st evs) {v : W} (h : s.pc t = .startEnq v) :
    p = .idle .waiting ∧ ∃ n, t = .node n ∧ ∃ ns : List Nat,
      evs = ns.map (.touch (.node n)) ++ [.enq n v, .retStart n .wait] := by
  cases hg
  case enq n v' ns hpc hq hns =>
    rw [h] at hpc
    cases hpc
    exact ⟨rfl, n, rfl, ns, rfl⟩
  all_goals simp_all

end

/-- A waiting node holds the waiter that was last recorded for it. -/
theorem ExecM.given {b : Bool} {tr : Trace W} {s : State W} (h : ExecM b c tr s) {n : Nat} (hn : n ∈ queueOf tr) :
    (s.list.node n).waiter = given tr n := by
  induction h with
  | init => simp [queueOf] at hn
  | @step tr s s' act evs h hs ih =>
    obtain ⟨t, p, st, lk, l, b, rx, rfl, ht, hg⟩ := h.good hs
    have hi := h.inv
    have hno := hi.node n
    rw [queueOf_append] at hn
    rw [given_append]
    simp only [State.after]
    have hnd := hi.rep.nodup
    rcases hi.data ht n with ⟨_, h1, h2⟩ | ⟨v, h1, h2, h3⟩ | ⟨v, u, h1, h2, h3, h4, h5, h6, h7⟩ |
      ⟨o, q', v, ns, h1, h2, h3, h4, h5, h6, h7, h8⟩ | ⟨o, q', v, ns, h1, h2, h3, h4, h5, h6, h7, h8⟩
    · rw [h1]
      rcases hg.given_change n (Queue.given tr n) with h3 | ⟨v, h3, h4, h5⟩ | ⟨v, h3⟩
      · rw [h3]
        rcases hg.mem_change hn with h4 | ⟨v, h4, h5⟩
        · exact ih h4
        · obtain ⟨_, m, h6, ns, h7⟩ := hg.enq_waiting h5
          subst h4
          simp only [Tid.node.injEq] at h6
          subst h6
          rw [h7, given_touch] at h3
          rw [h5] at hno
          simp only [NodeOk] at hno
          rw [← h3, hno.2.2]
          simp [gstep]
      · rw [h5]
        subst h3
        rw [h4] at hno
        exact hno.2.2
      · exact absurd h3 (h2 v)
    · subst h1
      rcases hg.mem_change hn with h4 | ⟨v, h4, h5⟩
      · rw [h2] at hno; exact absurd h4 hno.1
      · rw [h2] at h5; cases h5
    · rw [h6, h7]; simp [gstep]
    · rw [h8, fold_touch_append] at hn
      exact absurd hn (by simp [qstep, hnd.not_mem_erase])
    · rw [h8, fold_touch_append] at hn
      exact absurd hn (by simp [qstep, hnd.not_mem_erase])
  | stale _ _ _ ih => exact ih hn

/-- The call that holds a waiter took it from its node. -/
def Holds (s : State W) (o n : Nat) (v : W) : Prop :=
  s.pc (.op o) = .nStore (some (n, v)) ∨ s.pc (.op o) = .nUnlock (some (n, v)) ∨
    s.pc (.op o) = .nWake n v ∨ s.pc (.op o) = .cWake n v

theorem ExecM.holds {b : Bool} {tr : Trace W} {s : State W} (h : ExecM b c tr s) {o n : Nat} {v : W}
    (hh : Holds s o n v) : ∃ pre post, tr = pre ++ .deq o n :: post ∧ Queue.given pre n = some v := by
  induction h with
  | init => simp [Holds, State.init] at hh
  | @step tr s s' act evs h hs ih =>
    obtain ⟨t, p, st, lk, l, b, rx, rfl, ht, hg⟩ := h.good hs
    have hgi := fun n => h.given (n := n)
    clear ht
    have old : Holds s o n v → ∃ pre post, tr ++ evs = pre ++ .deq o n :: post ∧
        Queue.given pre n = some v := by
      intro h1
      obtain ⟨pre, post, rfl, h3⟩ := ih h1
      exact ⟨pre, post ++ evs, by simp, h3⟩
    by_cases hto : t = .op o
    · subst hto
      simp only [Holds, State.after, if_true] at hh
      cases hg
      case deq x u q' ns hq hv hns hst hpc =>
        simp at hh
        obtain ⟨rfl, rfl⟩ := hh
        refine ⟨tr ++ ns.map (.touch (.op o)), [], by simp, ?_⟩
        rw [given_append, ← List.append_nil (ns.map _), given_touch]
        rw [← hv]
        exact (hgi x (by rw [hq]; simp)).symm
      case cDeq x u q' ns hq hv hns hst hpc =>
        simp at hh
        obtain ⟨rfl, rfl⟩ := hh
        refine ⟨tr ++ ns.map (.touch (.op o)), [], by simp, ?_⟩
        rw [given_append, ← List.append_nil (ns.map _), given_touch]
        rw [← hv]
        exact (hgi x (by rw [hq]; simp)).symm
      case nStoreEmpty w hq hpc =>
        simp at hh; subst hh
        exact old (.inl hpc)
      case nStoreSkip w hq hpc =>
        simp at hh; subst hh
        exact old (.inl hpc)
      case nUnlock m u hpc =>
        simp at hh
        obtain ⟨rfl, rfl⟩ := hh
        exact old (.inr (.inl hpc))
      all_goals simp at hh
    · apply old
      simp only [Holds, State.after] at hh ⊢
      rwa [if_neg (fun h => hto h.symm)] at hh
  | @stale tr s t p _ h hs ih =>
    refine ih ?_
    have hp := hs.pcs
    unfold Holds at hh ⊢
    by_cases hto : .op o = t
    · subst hto
      rw [State.goto_self] at hh
      generalize s.pc (.op o) = x at hp ⊢
      cases hp
      simp at hh
    · rwa [State.goto_ne _ _ hto] at hh

/-! ## Who took a node -/

/-- The owner of a node is waiting, or was. -/
def PC.fam : PC W → Bool
  | .idle .waiting | .idle .contNotified | .contLoad _ | .contLock _ | .contReload _ | .contUpd _
  | .remCheck | .remLock | .remList | .abandoned => true
  | _ => false

theorem Good.taken_change {s : State W} {q : List Nat} {t : Tid} {p : PC W} {st : QSt}
    {evs : Trace W} (hg : Good c s q t p st evs) {n : Nat} (hn : n ∉ q)
    (hn' : n ∉ evs.foldl qstep q) (g : Option Nat) : evs.foldl (tstep n) g = g := by
  cases hg
  case enq m v ns hpc hq hns =>
    rw [fold_touch_append] at hn'
    simp [qstep] at hn'
    rw [takenBy_touch]
    have : ¬ m = n := fun h => hn'.1 h.symm
    simp [tstep, this]
  case rem m ns hpc hns => rw [takenBy_touch]; rfl
  case deq o x v q' ns hpc hq hv hns hst =>
    have : ¬ x = n := by rintro rfl; simp [hq] at hn
    rw [takenBy_touch]
    simp [tstep, this]
  case cDeq o x v q' ns hpc hq hv hns hst =>
    have : ¬ x = n := by rintro rfl; simp [hq] at hn
    rw [takenBy_touch]
    simp [tstep, this]
  all_goals rfl

theorem Good.leave {s : State W} {q : List Nat} {t : Tid} {p : PC W} {st : QSt}
    {evs : Trace W} (hg : Good c s q t p st evs) {n : Nat} (hn : n ∈ q)
    (hn' : n ∉ evs.foldl qstep q) : (t = .node n ∧ p = .remCas) ∨
      ∃ o, t = .op o ∧ (s.pc t = .nMatch .waiting ∨ s.pc t = .cLoop) ∧
        ∀ g, evs.foldl (tstep n) g = some o := by
  cases hg
  case enq m v ns hpc hq hns =>
    rw [fold_touch_append] at hn'
    simp [qstep] at hn'
    exact absurd hn hn'.2
  case rem m ns hpc hns =>
    rw [fold_touch_append] at hn'
    by_cases hmn : m = n
    · subst hmn; exact .inl ⟨rfl, rfl⟩
    · exact absurd ((List.mem_erase_of_ne (fun h => hmn h.symm)).2 hn) hn'
  case deq o x v q' ns hpc hq hv hns hst =>
    rw [fold_touch_append] at hn'
    by_cases hmn : x = n
    · subst hmn; exact .inr ⟨o, rfl, .inl hpc, fun g => by rw [takenBy_touch]; simp [tstep]⟩
    · exact absurd ((List.mem_erase_of_ne (fun h => hmn h.symm)).2 hn) hn'
  case cDeq o x v q' ns hpc hq hv hns hst =>
    rw [fold_touch_append] at hn'
    by_cases hmn : x = n
    · subst hmn; exact .inr ⟨o, rfl, .inr hpc, fun g => by rw [takenBy_touch]; simp [tstep]⟩
    · exact absurd ((List.mem_erase_of_ne (fun h => hmn h.symm)).2 hn) hn'
  all_goals exact absurd hn hn'

theorem Good.fam_change {s : State W} {q : List Nat} {t : Tid} {p : PC W} {st : QSt}
    {evs : Trace W} (hg : Good c s q t p st evs) {n : Nat} (ht : t = .node n) (hp : p.fam = true)
    (hn' : n ∉ evs.foldl qstep q) : (s.pc t).fam = true := by
  cases hg
  case enq m v ns hpc hq hns =>
    simp only [Tid.node.injEq] at ht
    subst ht
    rw [fold_touch_append] at hn'
    simp [qstep] at hn'
  case callCont m v l hpc hl => rw [hpc]; cases l <;> simp_all [Last.mayCont, PC.fam]
  all_goals first | simp [PC.fam] at hp; done | (rename_i h; rw [h]; rfl) | (rename_i h _; rw [h]; rfl) | (rename_i h _ _; rw [h]; rfl)

theorem ExecM.takenBy {b : Bool} {tr : Trace W} {s : State W} (h : ExecM b c tr s) {n : Nat}
    (hp : (s.pc (.node n)).fam = true) (hn : n ∉ queueOf tr) :
    ∃ o, Queue.takenBy tr n = some o ∧
      ((s.list.node n).state = .waking → Event.callNotify o ∈ tr) ∧
      ((s.list.node n).state = .closed → Event.callClose o ∈ tr) := by
  induction h with
  | init => simp [PC.fam, State.init] at hp
  | @step tr s s' act evs h hs ih =>
    obtain ⟨t, p, st, lk, l, b, rx, rfl, ht, hg⟩ := h.good hs
    have hi := h.inv
    rw [queueOf_append] at hn
    rw [takenBy_append]
    simp only [State.after] at hp ⊢
    by_cases hq : n ∈ queueOf tr
    · rcases hg.leave hq hn with ⟨rfl, rfl⟩ | ⟨o, rfl, hpc, htk⟩
      · simp [PC.fam] at hp
      · refine ⟨o, htk _, ?_⟩
        have hno := hi.node n
        simp only [reduceCtorEq, if_false] at hp
        have hst : (s.list.node n).state = .waiting := by
          generalize s.pc (.node n) = p0 at hno hp
          unfold PC.fam at hp
          split at hp <;> simp_all [NodeOk]
        rcases hi.data ht n with ⟨h1, h2⟩ | ⟨v, h1, h2, h3⟩ |
          ⟨v, u, h1, h2, h3, h4, h5, h6, h7⟩ |
          ⟨o', q', v, ns, h1, h2, h3, h4, h5, h6, h7, h8⟩ | ⟨o', q', v, ns, h1, h2, h3, h4, h5, h6, h7, h8⟩
        · rw [h1, hst]; simp
        · simp at h1
        · simp at h1
        · rw [h6]
          simp only [Tid.op.injEq] at h1
          subst h1
          refine ⟨fun _ => List.mem_append_left _ (h.called (by rw [h2]; rfl)), by simp⟩
        · rw [h6]
          simp only [Tid.op.injEq] at h1
          subst h1
          have ho := h.opHist o
          rw [h2] at ho
          obtain ⟨l, ho⟩ := ho
          refine ⟨by simp, fun _ => List.mem_append_left _ ?_⟩
          rw [← mem_opEvs (o := o) rfl, ho]
          simp
    · rw [hg.taken_change hq hn]
      have hp' : (s.pc (.node n)).fam = true := by
        by_cases hto : t = .node n
        · have := hg.fam_change hto (by rwa [if_pos hto.symm] at hp) hn
          rwa [hto] at this
        · rwa [if_neg (fun h => hto h.symm)] at hp
      obtain ⟨o, h1, h2, h3⟩ := ih hp' hq
      refine ⟨o, h1, ?_⟩
      have : (l.node n).state = (s.list.node n).state := by
        rcases hi.data ht n with ⟨h1, h2⟩ | ⟨v, h1, h2, h3⟩ |
          ⟨v, u, h1, h2, h3, h4, h5, h6, h7⟩ |
          ⟨o', q', v, ns, h1, h2, h3, h4, h5, h6, h7, h8⟩ | ⟨o', q', v, ns, h1, h2, h3, h4, h5, h6, h7, h8⟩
        · exact h1
        · subst h1; rw [h2] at hp'; simp [PC.fam] at hp'
        · exact h5
        · rw [h4] at hq; simp at hq
        · rw [h4] at hq; simp at hq
      rw [this]
      exact ⟨fun h => List.mem_append_left _ (h2 h), fun h => List.mem_append_left _ (h3 h)⟩
  | @stale tr s t p _ h hs ih =>
    refine ih ?_ hn
    have hp' := hs.pcs
    by_cases hto : .node n = t
    · subst hto
      rw [State.goto_self] at hp
      generalize s.pc (.node n) = x at hp' ⊢
      cases hp' <;> first | rfl | cases hp
    · rwa [State.goto_ne _ _ hto] at hp

/-! ## The arguments of calls -/

/-- The last call of `start_wait` on node `n` had argument `v` and has not returned; `early` says that it was made
before the queue was closed. -/
def LastStart (tr : Trace W) (n : Nat) (v : W) (early : Bool) : Prop :=
  ∃ pre post, tr = pre ++ .callStart n v :: post ∧
    ((∀ u, .callStart n u ∉ post) ∧ ∀ r, .retStart n r ∉ post) ∧
    (early = true → ∀ o, .closing o ∉ pre)

/-- The last call of `continue_wait` on node `n` had argument `v` and has not returned. -/
def LastCont (tr : Trace W) (n : Nat) (v : W) : Prop :=
  ∃ pre post, tr = pre ++ .callCont n v :: post ∧
    (∀ u, .callCont n u ∉ post) ∧ ∀ r, .retCont n r ∉ post

def ArgOk (p : PC W) (tr : Trace W) (n : Nat) : Prop :=
  match p with
  | .startCas v => LastStart tr n v false
  | .startLock v | .startLoad v | .startLoop v _ | .startSet v | .startEnq v => LastStart tr n v true
  | .contLoad v | .contLock v | .contReload v | .contUpd v => LastCont tr n v
  | _ => True

theorem LastStart.append {tr evs : Trace W} {n : Nat} {v : W} {e : Bool} (h : LastStart tr n v e)
    (he : ∀ u, .callStart n u ∉ evs) (hr : ∀ r, .retStart n r ∉ evs) :
    LastStart (tr ++ evs) n v e := by
  obtain ⟨pre, post, rfl, h1, h2⟩ := h
  exact ⟨pre, post ++ evs, by simp, ⟨fun u => by simp [h1.1 u, he u], fun r => by simp [h1.2 r, hr r]⟩, h2⟩

theorem LastCont.append {tr evs : Trace W} {n : Nat} {v : W} (h : LastCont tr n v)
    (he : ∀ u, .callCont n u ∉ evs) (hr : ∀ r, .retCont n r ∉ evs) : LastCont (tr ++ evs) n v := by
  obtain ⟨pre, post, rfl, h1⟩ := h
  exact ⟨pre, post ++ evs, by simp, fun u => by simp [h1.1 u, he u], fun r => by simp [h1.2 r, hr r]⟩

theorem LastStart.early {tr : Trace W} {n : Nat} {v : W} {e : Bool} (h : LastStart tr n v e)
    (he : ∀ o, .closing o ∉ tr) : LastStart tr n v true := by
  obtain ⟨pre, post, rfl, h1, h2⟩ := h
  exact ⟨pre, post, rfl, h1, fun _ o ho => he o (by simp [ho])⟩

theorem ExecM.argOk {b : Bool} {tr : Trace W} {s : State W} (h : ExecM b c tr s) (n : Nat) :
    ArgOk (s.pc (.node n)) tr n := by
  induction h with
  | init => simp [State.init, ArgOk]
  | @step tr s s' act evs h hs ih =>
    obtain ⟨t, p, st, lk, l, b, rx, rfl, ht, hg⟩ := h.good hs
    have hcl := h.closing_iff
    simp only [State.after]
    clear ht hs
    by_cases hto : t = .node n
    · subst hto
      rw [if_pos rfl]
      cases hg
      case callStart v l hl hpc hq => exact ⟨tr, [], rfl, by simp, by simp⟩
      case callCont v l hl hpc => exact ⟨tr, [], rfl, by simp, by simp⟩
      case startSlow v hs hpc =>
        rw [hpc] at ih
        refine (LastStart.append ih (by simp) (by simp)).early ?_
        simp only [List.append_nil]
        intro o ho
        rw [hcl.2 ⟨o, ho⟩] at hs
        simp at hs
      all_goals first
        | trivial
        | (simp only [ArgOk]; simp_all [ArgOk]; done)
    · rw [if_neg (fun h => hto h.symm)]
      have hno := hg.node_other hto
      unfold ArgOk at ih ⊢
      split at ih
      all_goals first
        | exact ih.append hno.2.2.2.2.1 hno.2.2.2.2.2.2.2.2.2.1
        | exact ih.append hno.2.2.2.2.2.1 hno.2.2.2.2.2.2.2.2.2.2
        | trivial
  | @stale tr s t p _ h hs ih =>
    have hp := hs.pcs
    by_cases hto : .node n = t
    · subst hto
      rw [State.goto_self]
      generalize s.pc (.node n) = x at hp ih
      cases hp <;> exact ih
    · rw [State.goto_ne _ _ hto]; exact ih

/-! ## After `close` has returned -/

/-- Program counters from which the owner may still enqueue its node, lock held. -/
def PC.mayEnq : PC W → Bool
  | .startLoop _ .waiting | .startSet _ | .startEnq _ => true
  | _ => false

theorem PC.mayEnq_crit {p : PC W} (h : p.mayEnq = true) : p.crit = true := by
  unfold PC.mayEnq at h
  split at h <;> simp_all [PC.crit]

section
variable {s : State W} {q : List Nat} {t : Tid} {p : PC W} {st : QSt} {evs : Trace W}

theorem Good.mayEnq (hg : Good c s q t p st evs) (h1 : s.st = .closed)
    (h2 : (s.pc t).mayEnq = false) : p.mayEnq = false := by
  cases hg <;> simp_all [PC.mayEnq]

theorem Good.nil_stays (hg : Good c s q t p st evs) (h1 : q = []) (h2 : (s.pc t).mayEnq = false) :
    evs.foldl qstep q = [] := by
  cases hg
  case enq n v ns hpc hq hns => rw [hpc] at h2; cases h2
  case deq hq _ _ _ => rw [h1] at hq; simp at hq
  case cDeq hq _ _ _ => rw [h1] at hq; simp at hq
  case rem => rw [fold_touch_append, h1]; rfl
  all_goals (subst h1; rfl)

theorem Good.retClose (hg : Good c s q t p st evs) {o : Nat} (ho : .retClose o ∈ evs) :
    ∃ o', t = .op o' ∧ s.pc t = .cLoop ∧ q = [] ∧ evs = [.retClose o'] ∧ p = .done ∧
      st = s.st ∧ s.st = .closed := by
  cases hg <;> simp_all

end

theorem ExecM.afterClose {b : Bool} {tr : Trace W} {s : State W} (h : ExecM b c tr s) {o : Nat}
    (ho : .retClose o ∈ tr) : queueOf tr = [] ∧ s.st = .closed ∧ ∀ t, (s.pc t).mayEnq = false := by
  induction h with
  | init => simp at ho
  | @step tr s s' act evs h hs ih =>
    have h' := h.step hs
    obtain ⟨t, p, st, lk, l, b, rx, rfl, ht, hg⟩ := h.good hs
    have hi := h.inv
    have hex := fun t u ht hu => hi.excl (t := t) (u := u) ht hu
    rw [queueOf_append]
    simp only [State.after]
    rcases List.mem_append.1 ho with ho | ho
    · obtain ⟨h1, h2, h3⟩ := ih ho
      have h3t := h3 t
      have hst : st = .closed := by
        have := h'.closing_iff.2
        refine this ?_
        obtain ⟨o', ho'⟩ := h.closing_iff.1 h2
        exact ⟨o', List.mem_append_left _ ho'⟩
      have hp : p.mayEnq = false := hg.mayEnq h2 h3t
      refine ⟨?_, hst, ?_⟩
      · exact hg.nil_stays h1 h3t
      · intro u
        split
        · exact hp
        · exact h3 u
    · obtain ⟨o', rfl, h1, h2, rfl, rfl, rfl, h3⟩ := hg.retClose ho
      refine ⟨by simp [qstep, h2], h3, ?_⟩
      intro u
      split
      · rfl
      · rename_i hu
        cases hm : (s.pc u).mayEnq with
        | false => rfl
        | true =>
          have hc : (s.pc u).crit = true := PC.mayEnq_crit hm
          exact absurd (hex u (.op o') hc (by rw [h1]; rfl)) hu
  | @stale tr s t p _ h hs ih =>
    obtain ⟨h1, h2, h3⟩ := ih ho
    refine ⟨h1, h2, fun u => ?_⟩
    by_cases hu : u = t
    · subst hu
      rw [State.goto_self]
      cases hs
      case start hq _ => rcases hq with rfl | rfl <;> rfl
      case startWaiting hl =>
        rw [(h.inv.isEmpty_iff).2 h1] at hl
        cases hl
      all_goals rfl
    · rw [State.goto_ne _ _ hu]; exact h3 u

end Thingbuf.Queue
