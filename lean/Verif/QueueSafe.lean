import Verif.QueueInv

/-!
# The main invariant of the wait queue

Helper lemmas for `QueueProps`.
-/

namespace Thingbuf.Queue

variable {W : Type} {c : Config W}

/-- What is known of a node, by the program counter of its owner; `inq` says whether it is
in the list. -/
def NodeOk (p : PC W) (nd : Node W) (inq : Prop) : Prop :=
  match p with
  | .idle .fresh | .idle .startNotified | .startCas _ | .startLock _ | .startLoad _
  | .startLoop _ _ | .startSet _ =>
    ¬ inq ∧ (nd.state = .empty ∨ nd.state = .waking) ∧ nd.waiter = none
  | .idle .contNotified => ¬ inq ∧ nd.state = .waking ∧ nd.waiter = none
  | .idle .closed | .remCas | .remUnlock | .gone => ¬ inq
  | .idle .waiting | .contLoad _ | .contLock _ | .contReload _ | .remCheck | .remLock | .remList
  | .abandoned =>
    (inq ∧ nd.state = .waiting ∧ nd.waiter.isSome = true) ∨
      (¬ inq ∧ (nd.state = .waking ∨ nd.state = .closed) ∧ nd.waiter = none)
  | .startEnq v => ¬ inq ∧ nd.state = .waiting ∧ nd.waiter = some v
  | .contUpd _ => inq ∧ nd.state = .waiting ∧ nd.waiter.isSome = true
  | _ => False

/-- What is known of the queue's state word, by program counter. -/
def LocalSt (p : PC W) (st : QSt) : Prop :=
  match p with
  | .startLoop _ .waiting | .startSet _ | .startEnq _ => st = .waiting ∨ st = .closed
  | .startLoop _ .empty | .startLoop _ .waking => st ≠ .waiting
  | .startLoop _ .closed => st = .closed
  | .cLock | .cLoop | .cWake _ _ => st = .closed
  | .nLoop q => q ≠ .closed
  | .nLock q | .nMatch q => q = .waiting
  | .nForce => False
  | _ => True

/-- Program counters at which the state word may say "waiting" although the list is
empty. -/
def PC.loose : PC W → Bool
  | .startSet _ | .startEnq _ | .nStore _ | .remCas => true
  | _ => false

/-- What holds in every state, also when wakers panic (see `QueuePanic`). -/
structure SInv (s : State W) (q : List Nat) : Prop where
  lockC : ∀ t, s.lock = some t ↔ (s.pc t).crit = true
  loc : ∀ t, LocalSt (s.pc t) s.st
  clos : ∀ t, (s.pc t).inClose = true → s.rxGone = true
  rx : s.st = .closed → s.rxGone = true
  borrow : ∀ t, (s.pc t).inNotify = true → ∃ o, t = .op o ∧ o ∈ s.borrows
  rxB : s.rxGone = true → s.borrows = []
  rep : Rep s.list q
  node : ∀ n, NodeOk (s.pc (.node n)) (s.list.node n) (n ∈ q)
  full : q ≠ [] → s.st = .waiting ∨ s.st = .closed

structure Inv (s : State W) (q : List Nat) : Prop extends SInv s q where
  wait : s.st = .waiting → q ≠ [] ∨ ∃ t, s.lock = some t ∧ (s.pc t).loose = true

theorem SInv.init : SInv (State.init : State W) [] := by
  constructor
  · intro t; cases t <;> simp [State.init, PC.crit]
  · intro t; cases t <;> simp [State.init, LocalSt]
  · intro t; cases t <;> simp [State.init, PC.inClose]
  · simp [State.init]
  · intro t; cases t <;> simp [State.init, PC.inNotify]
  · simp [State.init]
  · exact Rep.init
  · intro n; simp [State.init, NodeOk, WList.new, Node.new]
  · simp

theorem Inv.init : Inv (State.init : State W) [] := ⟨SInv.init, by simp [State.init]⟩

/-- A `notify` in progress means that the queue is not closed. -/
theorem SInv.notClosed {s : State W} {q : List Nat} (h : SInv s q) {t : Tid}
    (ht : (s.pc t).inNotify = true) : s.st ≠ .closed := by
  intro hc
  obtain ⟨o, rfl, ho⟩ := h.borrow t ht
  rw [h.rxB (h.rx hc)] at ho
  simp at ho

theorem SInv.excl {s : State W} {q : List Nat} (h : SInv s q) {t u : Tid}
    (ht : (s.pc t).crit = true) (hu : (s.pc u).crit = true) : t = u := by
  have h1 := (h.lockC t).2 ht
  have h2 := (h.lockC u).2 hu
  rw [h1] at h2
  simpa using h2

theorem foldl_touch (q : List Nat) (t : Tid) (ns : List Nat) :
    (ns.map (Event.touch (W := W) t)).foldl qstep q = q := by
  induction ns with
  | nil => rfl
  | cons n ns ih => simpa [qstep] using ih

theorem queueOf_append (tr evs : Trace W) :
    queueOf (tr ++ evs) = evs.foldl qstep (queueOf tr) := by
  simp [queueOf]

/-- The list of waiting nodes as its oldest element and the rest. -/
theorem queue_cases (q : List Nat) : q = [] ∨ ∃ q' x, q = q' ++ [x] := by
  rcases List.eq_nil_or_concat q with h | ⟨q', x, h⟩
  · exact .inl h
  · exact .inr ⟨q', x, by simpa using h⟩

theorem erase_last {q : List Nat} {x : Nat} (h : (q ++ [x]).Nodup) : (q ++ [x]).erase x = q := by
  rw [List.nodup_append] at h
  rw [List.erase_append_right _ (fun hc => h.2.2 x hc x (by simp) rfl)]
  simp

/-- What a dequeue does in a state that satisfies the invariant. -/
theorem SInv.dequeue {s : State W} {q : List Nat} (h : SInv s q) (ns : QSt) :
    (q = [] ∧ s.list.dequeue ns = ⟨s.list, none, true, []⟩) ∨
    (∃ q' x v, q = q' ++ [x] ∧ (s.list.node x).waiter = some v ∧ (s.list.node x).state = .waiting ∧
      (s.list.dequeue ns).val = some (x, some v) ∧ (s.list.dequeue ns).ok = true ∧
      (s.list.dequeue ns).touched = x :: q'.getLast?.toList ∧
      Rep (s.list.dequeue ns).list q' ∧ q.erase x = q' ∧ x ∉ q' ∧
      ((s.list.dequeue ns).list.node x).state = ns ∧ ((s.list.dequeue ns).list.node x).waiter = none ∧
      (∀ n, n ≠ x → ((s.list.dequeue ns).list.node n).state = (s.list.node n).state ∧
        ((s.list.dequeue ns).list.node n).waiter = (s.list.node n).waiter)) := by
  rcases queue_cases q with rfl | ⟨q', x, rfl⟩
  · exact .inl ⟨rfl, h.rep.dequeue_nil ns⟩
  · right
    have hx := h.node x
    have hin : x ∈ q' ++ [x] := by simp
    have hw : (s.list.node x).state = .waiting ∧ (s.list.node x).waiter.isSome = true := by
      cases hp : s.pc (.node x) <;> rw [hp] at hx <;> simp only [NodeOk, hin] at hx
      case idle l => cases l <;> simp_all [NodeOk]
      all_goals simp_all
    obtain ⟨v, hv⟩ := Option.isSome_iff_exists.1 hw.2
    obtain ⟨h1, h2, h3⟩ := h.rep.dequeue_val ns
    have hnd := h.rep.nodup
    refine ⟨q', x, v, rfl, hv, hw.1, by rw [h1, hv], by rw [h2, hw.1]; rfl, h3, h.rep.dequeue ns,
      erase_last hnd, ?_, ?_, ?_, ?_⟩
    · rw [List.nodup_append] at hnd
      exact fun hcc => hnd.2.2 x hcc x (by simp) rfl
    · rw [h.rep.dequeue_node]; simp
    · rw [h.rep.dequeue_node]; simp
    · intro n hn
      rw [h.rep.dequeue_node]
      simp only [hn, if_false]
      split <;> simp

section Step
variable {s : State W} {q : List Nat} {t : Tid} {p : PC W} {st : QSt} {lk : Option Tid}
  {l : WList W} {b : List Nat} {rx : Bool} {evs : Trace W}

theorem SInv.step_lockC (h : SInv s q) (ht : Tr c s t p st lk l b rx evs) (u : Tid) :
    (s.after t p st lk l b rx).lock = some u ↔ ((s.after t p st lk l b rx).pc u).crit = true := by
  have h1 := h.lockC u
  have h2 := h.lockC t
  have h3 : ∀ v, s.lock = some v → v = t ∨ s.lock ≠ some t := by
    intro v hv
    by_cases hvt : v = t
    · exact .inl hvt
    · right; rw [hv]; simpa using hvt
  by_cases hu : u = t
  · subst hu
    cases ht
    case acq hl ha => generalize hpc : s.pc _ = p0 at ha; cases ha <;> simp [State.after, PC.crit]
    all_goals simp_all [State.after, PC.crit]
  · have hu' : t ≠ u := fun h => hu h.symm
    cases ht
    case acq hl ha => generalize hpc : s.pc _ = p0 at ha; cases ha <;> simp_all [State.after, PC.crit]
    all_goals simp_all [State.after, PC.crit]

theorem SInv.step_clos (h : SInv s q) (ht : Tr c s t p st lk l b rx evs) (u : Tid) :
    ((s.after t p st lk l b rx).pc u).inClose = true → (s.after t p st lk l b rx).rxGone = true := by
  have h1 := h.clos u
  by_cases hu : u = t
  · subst hu
    cases ht
    case acq hl ha => generalize hpc : s.pc _ = p0 at ha; cases ha <;> simp_all [State.after, PC.inClose]
    all_goals simp_all [State.after, PC.inClose]
  · cases ht
    all_goals simp_all [State.after, PC.inClose]

theorem SInv.step_rx (h : SInv s q) (ht : Tr c s t p st lk l b rx evs) :
    (s.after t p st lk l b rx).st = .closed → (s.after t p st lk l b rx).rxGone = true := by
  have h1 := h.rx
  have h2 := h.clos t
  cases ht
  all_goals simp_all [State.after, PC.inClose]

theorem SInv.step_borrow (h : SInv s q) (ht : Tr c s t p st lk l b rx evs) (u : Tid) :
    ((s.after t p st lk l b rx).pc u).inNotify = true →
      ∃ o, u = .op o ∧ o ∈ (s.after t p st lk l b rx).borrows := by
  have h1 := h.borrow u
  by_cases hu : u = t
  · subst hu
    cases ht
    case acq hl ha => generalize hpc : s.pc _ = p0 at ha; cases ha <;> simp_all [State.after, PC.inNotify]
    all_goals simp_all [State.after, PC.inNotify]
  · have key : ∀ o, t = .op o → ∀ x, u = .op x → x ∈ s.borrows → x ∈ s.borrows.erase o := by
      rintro o rfl x rfl hx
      exact (List.mem_erase_of_ne (fun hc => hu (by rw [hc]))).2 hx
    intro hp
    have hp' : (s.pc u).inNotify = true := by
      simpa [State.after, hu] using hp
    obtain ⟨o, rfl, ho⟩ := h1 hp'
    refine ⟨o, rfl, ?_⟩
    cases ht
    all_goals first
      | exact ho
      | exact List.mem_cons_of_mem _ ho
      | exact key _ rfl _ rfl ho

theorem SInv.step_rxB (h : SInv s q) (ht : Tr c s t p st lk l b rx evs) :
    (s.after t p st lk l b rx).rxGone = true → (s.after t p st lk l b rx).borrows = [] := by
  have h1 := h.rxB
  cases ht
  all_goals simp_all [State.after]

theorem SInv.step_loc (h : SInv s q) (ht : Tr c s t p st lk l b rx evs) (u : Tid) :
    LocalSt ((s.after t p st lk l b rx).pc u) (s.after t p st lk l b rx).st := by
  have h1 := h.loc u
  have h2 := h.loc t
  have h3 := h.notClosed (t := t)
  have h4 := h.lockC t
  have h5 := h.lockC u
  by_cases hu : u = t
  · subst hu
    cases ht
    case acq hl ha => generalize hpc : s.pc _ = p0 at ha; cases ha <;> simp_all [State.after, LocalSt]
    case startLoad v hpc =>
      cases hq : s.st <;> simp_all [State.after, LocalSt]
    case loopAgain v q0 hq hpc =>
      cases hq : s.st <;> simp_all [State.after, LocalSt]
    all_goals simp_all [State.after, LocalSt, PC.inNotify]
    all_goals (rename_i q0 _ _; cases q0 <;> simp_all)
  · have h6 : s.lock = some t → s.lock ≠ some u := by
      intro h1 h2; rw [h1] at h2; simp at h2; exact hu h2.symm
    have hh : (s.after t p st lk l b rx).pc u = s.pc u := by simp [State.after, hu]
    rw [hh]
    by_cases hst : (s.after t p st lk l b rx).st = s.st
    · rw [hst]; exact h1
    · have h8 := h.clos u
      have h9 := h.rxB
      have h10 := h.borrow t
      cases ht
      all_goals first | exact absurd rfl hst | skip
      all_goals simp only [State.after]
      all_goals cases hpu : s.pc u
      all_goals simp_all [LocalSt, PC.crit, PC.inNotify, PC.inClose]
      all_goals (split <;> simp_all)

theorem fold_touch_append (t : Tid) (ns : List Nat) (evs : Trace W) (q : List Nat) :
    (ns.map (Event.touch (W := W) t) ++ evs).foldl qstep q = evs.foldl qstep q := by
  rw [List.foldl_append, foldl_touch]

/-- A node about to be enqueued is not in the list. -/
theorem SInv.enq_off (h : SInv s q) {n : Nat} {v : W} (hpc : s.pc (.node n) = .startEnq v) :
    n ∉ q := by
  have := h.node n; rw [hpc] at this; exact this.1

theorem SInv.remove_rep (h : SInv s q) (n : Nat) :
    Rep (s.list.remove n).list (q.erase n) ∧ (s.list.remove n).ok = true ∧
      (∀ m, ((s.list.remove n).list.node m).state = (s.list.node m).state ∧
        ((s.list.remove n).list.node m).waiter = (s.list.node m).waiter) ∧
      (∀ m ∈ (s.list.remove n).touched, m = n ∨ m ∈ q) := by
  by_cases hn : n ∈ q
  · obtain ⟨q1, q2, rfl⟩ := List.append_of_mem hn
    have hnp : n ∉ q1 := by
      have := h.rep.nodup
      rw [List.nodup_append] at this
      exact fun hc => this.2.2 n hc n (by simp) rfl
    rw [List.erase_append_right _ hnp, List.erase_cons_head]
    refine ⟨h.rep.remove, h.rep.remove_ok.1, ?_, ?_⟩
    · intro m
      rw [h.rep.remove_node]
      split
      · simp
      · split
        · simp
        · split <;> simp
    · intro m hm
      rw [h.rep.remove_ok.2] at hm
      simp only [List.mem_cons, List.mem_append, Option.mem_toList] at hm
      rcases hm with rfl | hm | hm
      · simp
      · exact .inr (by simp [List.mem_of_getLast? hm])
      · exact .inr (by simp [List.mem_of_mem_head? hm])
  · obtain ⟨h1, h2, h3, h4, h5⟩ := h.rep.remove_off hn
    rw [List.erase_of_not_mem hn]
    exact ⟨h.rep.of_same h1 h2 (fun m => by simp [h3]), h4, fun m => by simp [h3], by simp [h5]⟩

theorem enqueue_data (l : WList W) (n m : Nat) :
    ((l.enqueue n).list.node m).state = (l.node m).state ∧
      ((l.enqueue n).list.node m).waiter = (l.node m).waiter := by
  simp only [WList.enqueue]
  cases l.head with
  | none => simp only [WList.set_node]; split <;> simp
  | some x =>
    simp only [WList.set_node]
    split <;> split <;> simp

theorem SInv.deq_rep (h : SInv s q) (ns : QSt) (o : Nat) :
    Rep (s.list.dequeue ns).list ((deqEvents o (s.list.dequeue ns).val).foldl qstep q) := by
  rcases h.dequeue ns with ⟨rfl, hd⟩ | ⟨q', x, v, rfl, hv, hst, hval, hok, htch, hrep, her, hx, _⟩
  · rw [hd]; exact h.rep
  · rw [hval]
    simp only [deqEvents, List.foldl_cons, List.foldl_nil, qstep, her]
    exact hrep

theorem SInv.step_rep (h : SInv s q) (ht : Tr c s t p st lk l b rx evs) :
    Rep (s.after t p st lk l b rx).list (evs.foldl qstep q) := by
  cases ht
  case setAssert => simp only [State.after, List.foldl, qstep]; refine h.rep.set _ _ ?_ ?_ <;> intro <;> rfl
  case set => simp only [State.after, List.foldl, qstep]; refine h.rep.set _ _ ?_ ?_ <;> intro <;> rfl
  case upd => simp only [State.after, List.foldl, qstep]; refine h.rep.set _ _ ?_ ?_ <;> intro <;> rfl
  case enq n v hpc =>
    rw [List.append_assoc, fold_touch_append]
    exact h.rep.enqueue (h.enq_off hpc)
  case remAssert n hpc ho =>
    rw [List.append_assoc, fold_touch_append]
    exact (h.remove_rep n).1
  case rem n hpc => rw [fold_touch_append]; exact (h.remove_rep n).1
  case deqAssert o hpc hd hn =>
    rw [List.append_assoc, fold_touch_append, List.foldl_append]
    exact h.deq_rep _ _
  case deq o hpc hn => rw [fold_touch_append]; exact h.deq_rep _ _
  case cAssert o hpc he ho =>
    rw [List.append_assoc, fold_touch_append, List.foldl_append]
    exact h.deq_rep _ _
  case cDeq o n v hpc he hv => rw [fold_touch_append]; exact h.deq_rep _ _
  case cSkip o hpc he hv => rw [fold_touch_append]; exact h.deq_rep _ _
  all_goals exact h.rep

theorem NodeOk.congr {p : PC W} {nd nd' : Node W} {i i' : Prop} (h : NodeOk p nd i)
    (hs : nd'.state = nd.state) (hw : nd'.waiter = nd.waiter) (hi : i' ↔ i) : NodeOk p nd' i' := by
  have : i' = i := propext hi
  subst this
  unfold NodeOk at *
  simp only [hs, hw]
  exact h

theorem NodeOk.taken {p : PC W} {nd nd' : Node W} {i i' : Prop} (h : NodeOk p nd i) (hi : i)
    (hc : p.crit = false) (hs : nd'.state = .waking ∨ nd'.state = .closed)
    (hw : nd'.waiter = none) (hi' : ¬ i') : NodeOk p nd' i' := by
  unfold NodeOk at *
  split at h <;> simp_all [PC.crit]

theorem SInv.deq_node (h : SInv s q) {o : Nat} (hc : (s.pc (.op o)).crit = true) (ns : QSt)
    (hns : ns = .waking ∨ ns = .closed) (n : Nat) :
    NodeOk (s.pc (.node n)) ((s.list.dequeue ns).list.node n)
      (n ∈ (deqEvents o (s.list.dequeue ns).val).foldl qstep q) := by
  rcases h.dequeue ns with ⟨rfl, hd⟩ | ⟨q', x, v, rfl, hv, hst, hval, hok, htch, hrep, her, hx, hs, hw, ho⟩
  · rw [hd]; exact h.node n
  · rw [hval]
    simp only [deqEvents, List.foldl_cons, List.foldl_nil, qstep, her]
    by_cases hn : n = x
    · subst hn
      refine (h.node n).taken (by simp) ?_ (by rw [hs]; exact hns) hw hx
      cases hcc : (s.pc (.node n)).crit with
      | false => rfl
      | true => exact absurd (h.excl hc hcc) (by simp)
    · exact (h.node n).congr (ho n hn).1 (ho n hn).2 (by simp [hn])

theorem SInv.step_node (h : SInv s q) (ht : Tr c s t p st lk l b rx evs) (m : Nat) :
    NodeOk ((s.after t p st lk l b rx).pc (.node m)) ((s.after t p st lk l b rx).list.node m)
      (m ∈ evs.foldl qstep q) := by
  have hm := h.node m
  have hloc := h.loc t
  cases ht
  case enq n v hpc =>
    rw [List.append_assoc, fold_touch_append]
    have h0 := h.node n
    have hd := enqueue_data s.list n m
    by_cases hmn : m = n
    · subst hmn
      rw [hpc] at h0
      simp only [NodeOk] at h0
      simp [State.after, NodeOk, qstep, hd, h0]
    · have : Tid.node m ≠ .node n := by simp [hmn]
      simp only [State.after, this, if_false]
      exact hm.congr hd.1 hd.2 (by simp [qstep, hmn])
  case remAssert n hpc ho => rw [(h.remove_rep n).2.1] at ho; cases ho
  case rem n hpc =>
    rw [fold_touch_append]
    have hd := (h.remove_rep n).2.2.1 m
    by_cases hmn : m = n
    · subst hmn
      have := h.rep.nodup
      simp [State.after, NodeOk, qstep, this.not_mem_erase]
    · have : Tid.node m ≠ .node n := by simp [hmn]
      simp only [State.after, this, if_false]
      exact hm.congr hd.1 hd.2 (by simp [qstep, List.mem_erase_of_ne hmn])
  case deqAssert o hpc hd hn =>
    rw [List.append_assoc, fold_touch_append, List.foldl_append]
    simpa [State.after, qstep] using h.deq_node (o := o) (by rw [hpc]; rfl) .waking (.inl rfl) m
  case deq o hpc hn =>
    rw [fold_touch_append]
    simpa [State.after, qstep] using h.deq_node (o := o) (by rw [hpc]; rfl) .waking (.inl rfl) m
  case cAssert o hpc he ho =>
    rw [List.append_assoc, fold_touch_append, List.foldl_append]
    simpa [State.after, qstep] using h.deq_node (o := o) (by rw [hpc]; rfl) .closed (.inr rfl) m
  case cDeq o n v hpc he hv =>
    rw [fold_touch_append]
    simpa [State.after, qstep] using h.deq_node (o := o) (by rw [hpc]; rfl) .closed (.inr rfl) m
  case cSkip o hpc he hv =>
    rw [fold_touch_append]
    simpa [State.after, qstep] using h.deq_node (o := o) (by rw [hpc]; rfl) .closed (.inr rfl) m
  case acq hl ha =>
    by_cases hmt : Tid.node m = t
    · subst hmt
      generalize hpc : s.pc (.node m) = p0 at ha hm
      cases ha <;> simpa [State.after, NodeOk] using hm
    · simpa [State.after, hmt] using hm
  case callStart n v k hpc hk =>
    by_cases hmn : m = n
    · subst hmn
      rw [hpc] at hm
      cases k <;> simp_all [State.after, NodeOk, Last.mayStart, qstep]
    · simpa [State.after, hmn, qstep] using hm
  case callCont n v k hpc hk =>
    by_cases hmn : m = n
    · subst hmn
      rw [hpc] at hm
      cases k <;> simp_all [State.after, NodeOk, Last.mayCont, qstep]
    · simpa [State.after, hmn, qstep] using hm
  case callDrop n k hpc hk =>
    by_cases hmn : m = n
    · subst hmn
      rw [hpc] at hm
      cases k <;> simp_all [State.after, NodeOk, qstep]
    · simpa [State.after, hmn, qstep] using hm
  case set n v hpc =>
    by_cases hmn : m = n
    · subst hmn
      rw [hpc] at hm
      simp_all [State.after, NodeOk, qstep]
    · simpa [State.after, hmn, qstep, WList.set_node] using hm
  case setAssert n v hpc hd hn =>
    have hx := h.node n
    rw [hpc] at hx
    simp only [NodeOk] at hx
    simp [hx] at hn
  case upd n v hpc =>
    by_cases hmn : m = n
    · subst hmn
      rw [hpc] at hm
      simp_all [State.after, NodeOk, qstep]
    · simpa [State.after, hmn, qstep, WList.set_node] using hm
  case loopAssert n v q0 hpc hq hd hs =>
    rw [hpc] at hloc
    rcases hq with rfl | rfl <;> exact absurd hs hloc
  case reloadSlow n v hpc hs =>
    by_cases hmn : m = n
    · subst hmn
      rw [hpc] at hm
      simp only [NodeOk] at hm
      simp only [State.after, if_true, NodeOk, List.foldl_nil]
      rcases hm with hm | hm
      · exact hm
      · rcases hs with hs | hs <;> rw [hs] at hm <;> simp at hm
    · simpa [State.after, hmn, qstep] using hm
  all_goals first
    | exact hm
    | (rename_i n _ _; by_cases hmn : m = n
       · subst hmn
         simp_all [State.after, NodeOk, qstep]
       · simpa [State.after, hmn, qstep] using hm)
    | (rename_i n _; by_cases hmn : m = n
       · subst hmn
         simp_all [State.after, NodeOk, qstep]
       · simpa [State.after, hmn, qstep] using hm)
    | (rename_i n _ _ _; by_cases hmn : m = n
       · subst hmn
         simp_all [State.after, NodeOk, qstep]
       · simpa [State.after, hmn, qstep] using hm)
    | (rename_i n _ _ _ _; by_cases hmn : m = n
       · subst hmn
         simp_all [State.after, NodeOk, qstep]
       · simpa [State.after, hmn, qstep] using hm)
    | skip

theorem qstep_deq_ne {o : Nat} (ns : QSt) (h : SInv s q)
    (hne : (deqEvents o (s.list.dequeue ns).val).foldl qstep q ≠ []) : q ≠ [] := by
  rintro rfl
  have hd := h.rep.dequeue_nil ns
  rw [hd] at hne
  exact hne rfl

theorem SInv.step_full (h : SInv s q) (ht : Tr c s t p st lk l b rx evs) :
    evs.foldl qstep q ≠ [] →
      (s.after t p st lk l b rx).st = .waiting ∨ (s.after t p st lk l b rx).st = .closed := by
  have hf := h.full
  have hloc := h.loc t
  have hre := h.rep.isEmpty
  cases ht
  case enq n v hpc => intro _; rw [hpc] at hloc; exact hloc
  case remAssert n hpc ho => rw [(h.remove_rep n).2.1] at ho; cases ho
  case rem n hpc =>
    rw [fold_touch_append]
    intro hne
    refine hf ?_
    rintro rfl; simp [qstep] at hne
  case deqAssert o hpc hd hn =>
    rw [List.append_assoc, fold_touch_append, List.foldl_append]
    intro hne; exact hf (qstep_deq_ne _ h hne)
  case deq o hpc hn =>
    rw [fold_touch_append]
    intro hne; exact hf (qstep_deq_ne _ h hne)
  case cAssert o hpc he ho => intro _; rw [hpc] at hloc; exact .inr hloc
  case cDeq o n v hpc he hv => intro _; rw [hpc] at hloc; exact .inr hloc
  case cSkip o hpc he hv => intro _; rw [hpc] at hloc; exact .inr hloc
  all_goals simp_all [State.after, qstep, LocalSt]
  all_goals exact Classical.byContradiction fun hc => by have := hf hc; simp_all

theorem Inv.wait' (h : Inv s q) (t : Tid) (hw : s.st = .waiting) (hl : (s.pc t).loose = false) :
    q ≠ [] ∨ ((s.pc t).crit = false ∧ ∃ u, u ≠ t ∧ s.lock = some u ∧ (s.pc u).loose = true) := by
  rcases h.wait hw with h1 | ⟨u, hu, hlu⟩
  · exact .inl h1
  · right
    have hut : u ≠ t := by rintro rfl; rw [hl] at hlu; cases hlu
    refine ⟨?_, u, hut, hu, hlu⟩
    cases hc : (s.pc t).crit with
    | false => rfl
    | true => rw [(h.lockC t).2 hc] at hu; simp at hu; exact absurd hu.symm hut

theorem Inv.step_wait (h : Inv s q) (ht : Tr c s t p st lk l b rx evs) :
    (s.after t p st lk l b rx).st = .waiting →
      evs.foldl qstep q ≠ [] ∨ ∃ u, (s.after t p st lk l b rx).lock = some u ∧
        ((s.after t p st lk l b rx).pc u).loose = true := by
  have hloc := h.loc t
  have hlk := h.lockC t
  have hre := h.rep.isEmpty
  have hw := h.wait' t
  have key : s.st = .waiting → (s.pc t).loose = false → st = s.st → lk = s.lock →
      evs.foldl qstep q = q → evs.foldl qstep q ≠ [] ∨
        ∃ u, (s.after t p st lk l b rx).lock = some u ∧
        ((s.after t p st lk l b rx).pc u).loose = true := by
    intro h1 h2 h3 h4 h5
    rcases hw h1 h2 with h6 | ⟨_, u, h7, h8, h9⟩
    · left; rw [h5]; exact h6
    · right; exact ⟨u, by simp [State.after, h4, h8], by simpa [State.after, h7] using h9⟩
  have key2 : s.st = .waiting → (s.pc t).loose = false → (s.pc t).crit = true → st = s.st →
      evs.foldl qstep q = q → evs.foldl qstep q ≠ [] ∨
        ∃ u, (s.after t p st lk l b rx).lock = some u ∧
        ((s.after t p st lk l b rx).pc u).loose = true := by
    intro h1 h2 h2' h3 h5
    rcases hw h1 h2 with h6 | ⟨h7, _⟩
    · left; rw [h5]; exact h6
    · rw [h2'] at h7; cases h7
  cases ht
  case enq n v hpc =>
    intro _; left
    rw [List.append_assoc, fold_touch_append]; simp [qstep]
  case remAssert n hpc ho => rw [(h.remove_rep n).2.1] at ho; cases ho
  case rem n hpc =>
    intro _; right
    exact ⟨.node n, by simpa [State.after, hpc, PC.crit] using hlk, by simp [State.after, PC.loose]⟩
  case deqAssert o hpc hd hn =>
    intro hst
    rw [List.append_assoc, fold_touch_append, List.foldl_append]
    rcases h.dequeue .waking with ⟨rfl, hd'⟩ | ⟨q', x, v, rfl, hv, hst', hval, hok, _⟩
    · rcases hw hst (by rw [hpc]; rfl) with h1 | ⟨h1, _⟩
      · exact absurd rfl h1
      · rw [hpc] at h1; cases h1
    · simp [hval, hok, taken] at hn
  case deq o hpc hn =>
    intro _; right
    exact ⟨.op o, by simpa [State.after, hpc, PC.crit] using hlk, by simp [State.after, PC.loose]⟩
  case cAssert o hpc he ho => intro h1; rw [hpc] at hloc; simp only [LocalSt] at hloc; simp [State.after, hloc] at h1
  case cDeq o n v hpc he hv => intro h1; rw [hpc] at hloc; simp only [LocalSt] at hloc; simp [State.after, hloc] at h1
  case cSkip o hpc he hv => intro h1; rw [hpc] at hloc; simp only [LocalSt] at hloc; simp [State.after, hloc] at h1
  case loopSet n v hpc hs =>
    intro _; right
    exact ⟨.node n, by simpa [State.after, hpc, PC.crit] using hlk, by simp [State.after, PC.loose]⟩
  case loopWaiting n v hpc =>
    intro _; right
    exact ⟨.node n, by simpa [State.after, hpc, PC.crit] using hlk, by simp [State.after, PC.loose]⟩
  case set n v hpc =>
    intro _; right
    exact ⟨.node n, by simpa [State.after, hpc, PC.crit] using hlk, by simp [State.after, PC.loose]⟩
  case setAssert n v hpc hd hn =>
    have hx := h.node n
    rw [hpc] at hx
    simp only [NodeOk] at hx
    simp [hx] at hn
  case contAssert n v hpc hs =>
    have hx := h.node n
    rw [hpc] at hx
    simp only [NodeOk] at hx
    simp [hs] at hx
  case remSkip n hpc he =>
    intro h1; left
    rintro rfl
    exact he ⟨by rw [hre]; rfl, h1⟩
  case nStoreSkip o w hpc he =>
    intro h1; left
    rintro rfl
    rw [hre] at he; simp at he
  case acq hl ha =>
    intro h1
    rcases h.wait h1 with h2 | ⟨u, hu, _⟩
    · exact .inl h2
    · rw [hl] at hu; cases hu
  all_goals intro h1
  all_goals first
    | (simp [State.after] at h1; done)
    | exact key h1 (by simp_all [PC.loose]) rfl rfl rfl
    | exact key2 h1 (by simp_all [PC.loose]) (by simp_all [PC.crit]) rfl rfl
    | skip

/-- The invariant is preserved. -/
theorem SInv.step (h : SInv s q) (ht : Tr c s t p st lk l b rx evs) :
    SInv (s.after t p st lk l b rx) (evs.foldl qstep q) :=
  ⟨h.step_lockC ht, h.step_loc ht, h.step_clos ht, h.step_rx ht, h.step_borrow ht, h.step_rxB ht,
    h.step_rep ht, h.step_node ht, h.step_full ht⟩

theorem Inv.step (h : Inv s q) (ht : Tr c s t p st lk l b rx evs) :
    Inv (s.after t p st lk l b rx) (evs.foldl qstep q) :=
  ⟨h.toSInv.step ht, h.step_wait ht⟩

end Step

/-- The program counters around an outdated load. -/
inductive Stale.Pcs : Tid → PC W → PC W → Prop where
  | start (n v q) : Pcs (.node n) (.startLoad v) (.startLoop v q)
  | cont (n v) : Pcs (.node n) (.contLoad v) (.contLock v)
  | rem (n) : Pcs (.node n) .remCheck .remLock
  | notify (o q) : Pcs (.op o) .nLoad (.nLoop q)

theorem State.goto_self (s : State W) (t : Tid) (p : PC W) : (s.goto t p).pc t = p := by simp [State.goto]

theorem State.goto_ne (s : State W) {t u : Tid} (p : PC W) (h : u ≠ t) : (s.goto t p).pc u = s.pc u := by
  simp [State.goto, h]

theorem Stale.pcs {s : State W} {t : Tid} {p : PC W} (h : Stale s t p) : Stale.Pcs t (s.pc t) p := by
  cases h <;> rename_i h _ <;> first | (rw [h]; constructor) | skip
  all_goals simp_all
  all_goals constructor

/-- The invariant is preserved by an outdated load. -/
theorem SInv.stale {s : State W} {q : List Nat} {t : Tid} {p : PC W} (h : SInv s q) (ht : Stale s t p) :
    SInv (s.goto t p) q := by
  have hp := ht.pcs
  refine ⟨fun u => ?_, fun u => ?_, fun u => ?_, h.rx, fun u => ?_, h.rxB, h.rep, fun n => ?_, h.full⟩
  · have h1 := h.lockC u
    by_cases hu : u = t
    · subst hu
      rw [State.goto_self]
      generalize s.pc u = x at hp h1
      cases hp <;> simpa [PC.crit, State.goto] using h1
    · rw [State.goto_ne _ _ hu]; exact h1
  · have h1 := h.loc u
    by_cases hu : u = t
    · subst hu
      rw [State.goto_self]
      cases ht <;> simp_all [LocalSt, State.goto]
      rename_i hq _
      rcases hq with rfl | rfl <;> simp_all
    · rw [State.goto_ne _ _ hu]; exact h1
  · have h1 := h.clos u
    by_cases hu : u = t
    · subst hu
      rw [State.goto_self]
      generalize s.pc u = x at hp h1
      cases hp <;> simp [PC.inClose]
    · rw [State.goto_ne _ _ hu]; exact h1
  · have h1 := h.borrow u
    by_cases hu : u = t
    · subst hu
      rw [State.goto_self]
      generalize s.pc u = x at hp h1
      cases hp <;> simp_all [PC.inNotify, State.goto]
    · rw [State.goto_ne _ _ hu]; exact h1
  · have h1 := h.node n
    by_cases hu : .node n = t
    · subst hu
      rw [State.goto_self]
      generalize s.pc (.node n) = x at hp h1
      cases hp <;> simpa [NodeOk, State.goto] using h1
    · rw [State.goto_ne _ _ hu]; exact h1

theorem Inv.stale {s : State W} {q : List Nat} {t : Tid} {p : PC W} (h : Inv s q) (ht : Stale s t p) :
    Inv (s.goto t p) q := by
  refine ⟨h.toSInv.stale ht, fun hw => ?_⟩
  rcases h.wait hw with hq | ⟨u, hl, hu⟩
  · exact .inl hq
  · refine .inr ⟨u, hl, ?_⟩
    have hp := ht.pcs
    by_cases hut : u = t
    · subst hut
      generalize s.pc u = x at hp hu
      cases hp <;> simp [PC.loose] at hu
    · rw [State.goto_ne _ _ hut]; exact hu

/-- The invariant holds in every execution. -/
theorem ExecM.inv {b : Bool} {tr : Trace W} {s : State W} (h : ExecM b c tr s) : Inv s (queueOf tr) := by
  induction h with
  | init => exact Inv.init
  | step _ hs ih =>
    obtain ⟨t, p, st, lk, l, b, rx, rfl, ht⟩ := step_tr hs
    rw [queueOf_append]
    exact ih.step ht
  | stale _ _ hs ih => exact ih.stale hs

end Thingbuf.Queue
