import Verif.QueueDemo
import Verif.WaitListProps

/-!
# Properties of the senders' wait queue (C24 - C30)

`Exec c tr s`: the queue was used by any number of senders (each with one node), `notify`
calls and one `close` call, in any interleaving, and did `tr`. Waiters are of type `W`.
`Exec c` is `ExecM false c`. Theorems about `ExecM bm c` hold for it, and also if the plain
loads of the code may yield values that are out of date (`ExecM true c`, used for C62).
A sender *waits* after a trace if its node is in `queueOf` of the trace (`waiting_iff` says
what that means).
-/

namespace Thingbuf.Queue

variable {W : Type} {c : Config W} {bm : Bool} {tr : Trace W} {s : State W}

/-! ## The list -/

/-- The specification `queueOf` means what it should: the nodes that were enqueued and have
since neither been taken by a `notify`/`close` nor removed by their owner. -/
theorem waiting_iff (h : ExecM bm c tr s) {n : Nat} :
    n ∈ queueOf tr ↔ ∃ a v b, tr = a ++ .enq n v :: b ∧ (∀ o, .deq o n ∉ b) ∧ .rem n ∉ b := by
  rw [mem_queueOf h.evOk]
  constructor
  · rintro ⟨a, v, b, h1, h2⟩
    exact ⟨a, v, b, h1, fun o ho => h2 _ ho (.inl ⟨o, rfl⟩), fun ho => h2 _ ho (.inr rfl)⟩
  · rintro ⟨a, v, b, h1, h2, h3⟩
    refine ⟨a, v, b, h1, ?_⟩
    rintro e he (⟨o, rfl⟩ | rfl)
    · exact h2 o he
    · exact h3 he

example : ∃ s, Exec (demoC true) (demoTr.take 30) s ∧ queueOf (demoTr.take 30) = [4, 3, 2] := by
  obtain ⟨s, hs⟩ := Exec.of_trace (c := demoC true) (acts := aStart 1 10 6 ++ aStart 2 20 6 ++
    aStart 3 30 6 ++ aNotify 0 7 ++ aCont 1 10 1 ++ aCont 2 21 4 ++ aStart 4 40 6)
    (tr := demoTr.take 30) (by decide +kernel)
  exact ⟨s, hs, by decide⟩

/-- **C25.** In every reachable state, also in the middle of operations of other threads, the
pointers of the list spell out the waiting nodes, without duplicates, in both directions; and
every one of them is live, unless its owner was a blocking send that timed out. -/
theorem C25_list_is_queue (h : ExecM bm c tr s) (k : Nat) (hk : (queueOf tr).length ≤ k) :
    walkNext s.list.node k s.list.head = queueOf tr ∧
      walkPrev s.list.node k s.list.tail = (queueOf tr).reverse ∧ (queueOf tr).Nodup ∧
      ∀ n ∈ queueOf tr, .giveUp n ∉ tr → .free n ∉ tr := by
  refine ⟨(C25_traversal h.inv.rep k hk).1, (C25_traversal h.inv.rep k hk).2, h.inv.rep.nodup, ?_⟩
  intro n hn hg hf
  exact hg (h.freed_waiting hn hf)

/-! ## Order -/

/-- **C24.** A node is taken out of the list by a `notify` (or `close`) only when it is the
longest waiting one: every other waiting node was enqueued later. -/
theorem C24_fifo (h : ExecM bm c tr s) {pre post : Trace W} {o n : Nat}
    (htr : tr = pre ++ .deq o n :: post) :
    n ∈ queueOf pre ∧ ∀ m ∈ queueOf pre, m ≠ n →
      ∃ a u b v d, pre = a ++ .enq n u :: (b ++ .enq m v :: d) ∧
        (∀ o', .deq o' n ∉ b ++ .enq m v :: d) ∧ .rem n ∉ b ++ .enq m v :: d ∧
        (∀ o', .deq o' m ∉ d) ∧ .rem m ∉ d := by
  have hok := h.evOk
  obtain ⟨⟨q', hq⟩, _⟩ := hok pre _ post htr
  have hp : AllOk (EvOkM bm c) pre := hok.prefix ⟨_, htr.symm⟩
  refine ⟨by simp [hq], ?_⟩
  intro m hm hmn
  have hm' : m ∈ q' := by
    rw [hq] at hm
    simp only [List.mem_append, List.mem_singleton] at hm
    rcases hm with hm | hm
    · exact hm
    · exact absurd hm hmn
  have hs : [m, n].Sublist (queueOf pre) := by
    rw [hq]
    exact List.Sublist.append (List.singleton_sublist.2 hm') (List.Sublist.refl [n])
  obtain ⟨a, u, b, v, d, h1, h2, h3⟩ := queue_order hp hs
  exact ⟨a, u, b, v, d, h1, fun o' ho => h2 _ ho (.inl ⟨o', rfl⟩), fun ho => h2 _ ho (.inr rfl),
    fun o' ho => h3 _ ho (.inl ⟨o', rfl⟩), fun ho => h3 _ ho (.inr rfl)⟩

example : ∃ s pre post, Exec (demoC true) demoTr s ∧ demoTr = pre ++ .deq 0 1 :: post ∧
    queueOf pre = [3, 2, 1] := by
  obtain ⟨s, hs⟩ := demo_exec
  exact ⟨s, demoTr.take 17, demoTr.drop 18, hs, by decide, by decide⟩

/-- **C24**, in terms of calls: if `start_wait` of sender `m` had returned `Wait` before sender
`n` called `start_wait`, then `n` is not taken before `m`, unless `m` cancelled. -/
theorem C24_no_overtaking (h : ExecM bm c tr s) {p1 p2 p3 p4 : Trace W} {o m n : Nat} {v : W}
    (hmn : m ≠ n)
    (htr : tr = p1 ++ .retStart m .wait :: (p2 ++ .callStart n v :: (p3 ++ .deq o n :: p4))) :
    (∃ o', .deq o' m ∈ p2 ++ p3) ∨ .rem m ∈ p2 ++ p3 := by
  have hok := h.evOk
  have hmret := hok p1 _ _ htr
  obtain ⟨p0, u0, rfl⟩ := hmret
  rcases Classical.em ((∃ o', .deq o' m ∈ p2 ++ p3) ∨ .rem m ∈ p2 ++ p3) with hc | hc
  · exact hc
  exfalso
  let pre := p0 ++ .enq m u0 :: (.retStart m .wait :: (p2 ++ .callStart n v :: p3))
  have htr' : tr = pre ++ .deq o n :: p4 := by rw [htr]; simp [pre]
  have hp : AllOk (EvOkM bm c) pre := hok.prefix ⟨_, htr'.symm⟩
  have hst : ∀ e ∈ Event.retStart m .wait :: (p2 ++ .callStart n v :: p3), ¬ e.leaves m := by
    rintro e he (⟨o', rfl⟩ | rfl)
    · exact hc (.inl ⟨o', by simpa using he⟩)
    · exact hc (.inr (by simpa using he))
  have hm : m ∈ queueOf pre := (mem_queueOf hp).2 ⟨p0, u0, _, rfl, hst⟩
  obtain ⟨a, u, b, w, d, h1, h2, h3, h4, h5⟩ := (C24_fifo h htr').2 m hm hmn
  obtain ⟨h6, _, h7⟩ := enq_unique hp (n := m) rfl hst (by rw [h1]; simp) (a' := a ++ .enq n u :: b)
    (v' := w) (b' := d) (by
      rintro e he (⟨o', rfl⟩ | rfl)
      · exact h4 o' he
      · exact h5 he)
  -- so `n` was waiting when its owner called `start_wait`
  refine (hok (p0 ++ [.enq m u0] ++ .retStart m .wait :: p2) (.callStart n v) (p3 ++ .deq o n :: p4)
    (by rw [htr]; simp)).1 ?_
  rw [mem_queueOf (hok.prefix ⟨.callStart n v :: (p3 ++ .deq o n :: p4), by rw [htr]; simp⟩)]
  refine ⟨a, u, b ++ .enq m u0 :: .retStart m .wait :: p2, by rw [h6]; simp, ?_⟩
  rintro e he (⟨o', rfl⟩ | rfl)
  · refine h2 o' ?_
    rw [← h7]
    simp at he ⊢
    rcases he with he | he <;> simp [he]
  · refine h3 ?_
    rw [← h7]
    simp at he ⊢
    rcases he with he | he <;> simp [he]

example : ∃ s p1 p2 p3 p4, Exec (demoC true) demoTr s ∧
    demoTr = p1 ++ .retStart 1 .wait :: (p2 ++ .callStart 2 20 :: (p3 ++ .deq 9 2 :: p4)) := by
  obtain ⟨s, hs⟩ := demo_exec
  exact ⟨s, demoTr.take 3, [], (demoTr.drop 5).take 35, demoTr.drop 41, hs, by decide⟩

/-- **C24**, what the senders see: if the later sender `n` has been taken, then no call of
`continue_wait` by the earlier sender `m` returns `Wait` any more (unless `m` starts to wait
anew). -/
theorem C24_earlier_sees_it (h : ExecM bm c tr s) {p1 p2 p3 p4 p5 : Trace W} {o m n : Nat} {v : W}
    (hmn : m ≠ n)
    (htr : tr = p1 ++ .retStart m .wait ::
      (p2 ++ .callStart n v :: (p3 ++ .deq o n :: (p4 ++ .retCont m .wait :: p5)))) :
    ∃ u, .callStart m u ∈ p2 ++ p3 ++ p4 := by
  have hok := h.evOk
  have h1 := C24_no_overtaking h hmn htr
  let pre := p1 ++ .retStart m .wait :: (p2 ++ .callStart n v :: (p3 ++ .deq o n :: p4))
  have htr' : tr = pre ++ .retCont m .wait :: p5 := by rw [htr]; simp [pre]
  have hp : AllOk (EvOkM bm c) pre := hok.prefix ⟨_, htr'.symm⟩
  have hm : m ∈ queueOf pre := (hok _ _ _ htr').1
  obtain ⟨a, w, b, h2, h3⟩ := (mem_queueOf hp).1 hm
  obtain ⟨x, y, h4, ⟨h5, h6⟩, _⟩ := (hp a _ _ h2).2.2.1
  -- the enqueueing that counts is after `p1`, because `m` left the list after `p1`
  have hx : pre = x ++ .callStart m w :: (y ++ .enq m w :: b) := by rw [h2, h4]; simp
  have hR : .retStart m .wait ∉ y := h6 _
  rcases List.append_eq_append_iff.1 (show p1 ++ _ = x ++ _ from hx) with ⟨l, h7, h8⟩ | ⟨l, h7, h8⟩
  · cases l with
    | nil => simp at h8
    | cons e l =>
      simp only [List.cons_append, List.cons.injEq] at h8
      obtain ⟨rfl, h8⟩ := h8
      have : Event.callStart m w ∈ p2 ++ .callStart n v :: (p3 ++ .deq o n :: p4) := by rw [h8]; simp
      refine ⟨w, ?_⟩
      simp only [List.mem_append, List.mem_cons, Event.callStart.injEq, reduceCtorEq, false_or] at this ⊢
      rcases this with h9 | ⟨h9, _⟩ | h9 | h9
      · exact .inl (.inl h9)
      · exact absurd h9 hmn
      · exact .inl (.inr h9)
      · exact .inr h9
  · -- otherwise the return of `start_wait` would be in `y`, or the last enqueueing before it
    exfalso
    cases l with
    | nil => simp at h8
    | cons e l =>
      simp only [List.cons_append, List.cons.injEq] at h8
      obtain ⟨rfl, h8⟩ := h8
      rcases append_split h8 with ⟨p', h9, h10⟩ | ⟨e1, h9, h10⟩
      · exact hR (by rw [h10]; simp)
      · cases e1 with
        | nil => simp at h9
        | cons e e1 =>
          simp only [List.cons_append, List.cons.injEq] at h9
          obtain ⟨rfl, rfl⟩ := h9
          rcases h1 with ⟨o', h1⟩ | h1
          · refine h3 (.deq o' m) ?_ (.inl ⟨o', rfl⟩)
            simp only [List.mem_append, List.mem_cons] at h1 ⊢
            rcases h1 with h1 | h1 <;> simp [h1]
          · refine h3 (.rem m) ?_ (.inr rfl)
            simp only [List.mem_append, List.mem_cons] at h1 ⊢
            rcases h1 with h1 | h1 <;> simp [h1]

/-- `notify` calls that do not overlap: one is called only when the others have returned. -/
def SerialNotify (tr : Trace W) : Prop :=
  ∀ pre o post o', tr = pre ++ .callNotify o :: post → .callNotify o' ∈ pre →
    ∃ b, .retNotify o' b ∈ pre

theorem SerialNotify.not_both (hser : SerialNotify tr) {pre post : Trace W} {e : Event W}
    {s0 : State W} (htr : tr = pre ++ e :: post) (h : ExecM bm c pre s0) {o o' : Nat} (hne : o' ≠ o)
    (h1 : (s0.pc (.op o')).inNotify = true) (h2 : (s0.pc (.op o)).inNotify = true) : False := by
  have hc1 := h.called h1
  have hc2 := h.called h2
  obtain ⟨x, y, rfl⟩ := List.append_of_mem hc1
  simp only [List.mem_append, List.mem_cons, Event.callNotify.injEq] at hc2
  rcases hc2 with hc2 | hc2 | hc2
  · obtain ⟨b, hb⟩ := hser x o' (y ++ e :: post) o (by rw [htr]; simp) hc2
    exact h.notReturned h2 b (by simp [hb])
  · exact hne hc2.symm
  · obtain ⟨y1, y2, rfl⟩ := List.append_of_mem hc2
    obtain ⟨b, hb⟩ := hser (x ++ .callNotify o' :: y1) o (y2 ++ e :: post) o' (by rw [htr]; simp)
      (by simp)
    refine h.notReturned h1 b ?_
    simp only [List.mem_append, List.mem_cons] at hb ⊢
    rcases hb with hb | hb | hb <;> simp [hb]

/-- **C24**, for the wake-ups themselves, when `notify` calls do not overlap: when sender `m` is
woken, every sender `n` that was enqueued before it has been woken or has cancelled since.
(Missing: overlapping `notify` calls, which may wake in another order than they took the
nodes: `C24_wakes_swapped`.) -/
theorem C24_wakes_in_order_partial (h : ExecM bm c tr s) (hser : SerialNotify tr)
    {pre post a b d e : Trace W} {o m n : Nat} {u v w : W} (hmn : n ≠ m)
    (htr : tr = pre ++ .wake o m v :: post)
    (hpre : pre = a ++ .enq n u :: (b ++ .enq m w :: (d ++ .deq o m :: e))) :
    .rem n ∈ b ++ d ∨ ∃ o' w', .wake o' n w' ∈ b ++ d ++ e := by
  have hok := h.evOk
  have htr1 : tr = (a ++ .enq n u :: (b ++ .enq m w :: d)) ++ .deq o m :: (e ++ .wake o m v :: post) := by
    rw [htr, hpre]; simp
  have hp := hok.prefix ⟨_, htr1.symm⟩
  rcases Classical.em (.rem n ∈ b ++ d) with h1 | h1
  · exact .inl h1
  right
  rcases Classical.em (∃ o', Event.deq o' n ∈ b ++ .enq m w :: d) with ⟨o', h2⟩ | h2
  · obtain ⟨x, y, hxy⟩ := List.append_of_mem h2
    obtain ⟨s0, h3, h4⟩ := h.at_wake htr
    have hi := h3.inv
    have hnot : ¬ (s0.pc (.op o')).holding n := by
      intro hh
      by_cases hoo : o' = o
      · subst hoo
        rcases h4 with h4 | h4 <;> rw [h4] at hh <;> exact hmn hh.symm
      · have hcn : ∀ x y, (s0.pc (.op x)).inNotify = true → (s0.pc (.op y)).inClose = true → False := by
          intro x y hx hy
          obtain ⟨o2, _, h7⟩ := hi.borrow _ hx
          rw [hi.rxB (hi.clos _ hy)] at h7; cases h7
        have hn' : (s0.pc (.op o')).inNotify = true ∨
            ((s0.pc (.op o')).inClose = true ∧ (s0.pc (.op o')).crit = true) := by
          generalize s0.pc (.op o') = p0 at hh
          unfold PC.holding at hh
          split at hh <;> first | exact .inl rfl | exact .inr ⟨rfl, rfl⟩ | exact hh.elim
        have hn : (s0.pc (.op o)).inNotify = true ∨
            ((s0.pc (.op o)).inClose = true ∧ (s0.pc (.op o)).crit = true) := by
          rcases h4 with h4 | h4 <;> rw [h4]
          · exact .inl rfl
          · exact .inr ⟨rfl, rfl⟩
        rcases hn' with hn' | hn' <;> rcases hn with hn | hn
        · exact hser.not_both htr h3 hoo hn' hn
        · exact hcn _ _ hn' hn.1
        · exact hcn _ _ hn hn'.1
        · have := hi.excl hn'.2 hn.2
          simp only [Tid.op.injEq] at this
          exact hoo this
    obtain ⟨w', h5⟩ := h3.deq_then_wake (o := o') (n := n) (a := a ++ .enq n u :: x)
      (b := y ++ .deq o m :: e) (by
        have : b ++ .enq m w :: (d ++ .deq o m :: e) = (b ++ .enq m w :: d) ++ .deq o m :: e := by simp
        rw [hpre, this, hxy]; simp) hnot
    refine ⟨o', w', ?_⟩
    have h6 : Event.wake o' n w' ∈ (b ++ .enq m w :: d) ++ .deq o m :: e := by
      rw [hxy]
      simp only [List.mem_append, List.mem_cons] at h5 ⊢
      rcases h5 with h5 | h5 | h5 <;> simp [h5]
    simpa using h6
  · exfalso
    have hl : ∀ x ∈ b ++ .enq m w :: d, ¬ x.leaves n := by
      rintro x hx (⟨o', rfl⟩ | rfl)
      · exact h2 ⟨o', hx⟩
      · exact h1 (by simpa using hx)
    have hn := (mem_queueOf hp).2 ⟨a, u, _, rfl, hl⟩
    obtain ⟨a', u', b', v', d', h3, h4, h5, h6, h7⟩ := (C24_fifo h htr1).2 n hn hmn
    obtain ⟨h8, _, h9⟩ := enq_unique hp (n := n) rfl hl (by rw [h3]; simp) (a' := a' ++ .enq m u' :: b')
      (v' := v') (b' := d') (by
        rintro x hx (⟨o', rfl⟩ | rfl)
        · exact h6 o' hx
        · exact h7 hx)
    subst h9
    refine (hok (a ++ .enq n u :: b) (.enq m w) (d ++ .deq o m :: (e ++ .wake o m v :: post))
      (by rw [htr1]; simp)).1 ?_
    rw [mem_queueOf (hok.prefix ⟨.enq m w :: (d ++ .deq o m :: (e ++ .wake o m v :: post)),
      by rw [htr1]; simp⟩)]
    refine ⟨a', u', b' ++ .enq n u :: b, by rw [h8]; simp, ?_⟩
    rintro x hx (⟨o', rfl⟩ | rfl)
    · apply h4 o'
      simp at hx ⊢
      rcases hx with hx | hx <;> simp [hx]
    · apply h5
      simp at hx ⊢
      rcases hx with hx | hx <;> simp [hx]

example : ∃ s pre post a b d e, Exec (demoC true) demoTr s ∧
    demoTr = pre ++ .wake 9 4 40 :: post ∧
    pre = a ++ .enq 2 20 :: (b ++ .enq 4 40 :: (d ++ .deq 9 4 :: e)) := by
  obtain ⟨s, hs⟩ := demo_exec
  exact ⟨s, demoTr.take 44, demoTr.drop 45, demoTr.take 7, (demoTr.drop 8).take 20,
    (demoTr.drop 29).take 14, [], hs, by decide, by decide⟩

theorem demo_serial : SerialNotify demoTr := by
  intro pre o post o' h ho
  have h1 : demoTr.filter (fun e => match e with | .callNotify _ => true | _ => false) =
      [.callNotify 0] := by decide
  rw [h, List.filter_append, List.filter_cons] at h1
  have h2 : pre.filter (fun e => match e with | .callNotify _ => true | _ => false) = [] := by
    cases hf : pre.filter (fun e => match e with | .callNotify _ => true | _ => false) with
    | nil => rfl
    | cons x l => rw [hf] at h1; simp at h1
  have : Event.callNotify o' ∈ pre.filter (fun e => match e with | .callNotify _ => true | _ => false) := by
    simp [ho]
  rw [h2] at this
  cases this

/-- Without the condition that `notify` calls do not overlap the wake-ups may be swapped: sender
1 was enqueued before sender 2, but sender 2 is woken first. -/
theorem C24_wakes_swapped : ∃ s p1 p2 p3 p4 p5,
    Exec (demoC true) (p1 ++ .enq 1 10 :: (p2 ++ .enq 2 20 :: (p3 ++ .wake 1 2 20 :: (p4 ++
      .wake 0 1 10 :: p5)))) s ∧ ∀ o v, .wake o 1 v ∉ p2 ++ p3 := by
  obtain ⟨s, hs⟩ := swap_exec
  refine ⟨s, swapTr.take 2, (swapTr.drop 3).take 4, (swapTr.drop 8).take 8, [.retNotify 1 true],
    [.retNotify 0 true], hs, ?_⟩
  intro o v h
  simp [swapTr] at h

/-! ## Notifications -/

/-- **C26.** A `notify` that reports that it woke somebody has taken exactly one waiting node,
woken exactly the waiter it found there, and done nothing else. -/
theorem C26_one_wake (h : ExecM bm c tr s) {o : Nat} (hr : .retNotify o true ∈ tr) :
    ∃ n v, opEvs tr o = [.callNotify o, .deq o n, .wake o n v, .retNotify o true] := by
  rcases h.retNotify_cases hr with ⟨h1, _⟩ | ⟨_, h1⟩ | ⟨h1, _⟩
  · cases h1
  · exact h1
  · cases h1

example : ∃ s, Exec (demoC true) demoTr s ∧ Event.retNotify 0 true ∈ demoTr := by
  obtain ⟨s, hs⟩ := demo_exec
  exact ⟨s, hs, by decide⟩

/-- **C26**, for a `notify` during which no other call takes nodes out of the list: it wakes
exactly one waiting sender, or it stores exactly one notification; it does not do both and it
does not do nothing. (In the other schedules it may do nothing: `C26_notification_lost`.) -/
theorem C26_notify_alone (h : Exec c tr s) {o : Nat} {b : Bool} (hr : .retNotify o b ∈ tr)
    (hno : ¬ Overlapped tr o) :
    (b = true ∧ ∃ n v, opEvs tr o = [.callNotify o, .deq o n, .wake o n v, .retNotify o true]) ∨
    (b = false ∧ opEvs tr o = [.callNotify o, .store o, .retNotify o false]) := by
  rcases h.retNotify_cases hr with h1 | h1 | ⟨rfl, h1, h2⟩
  · exact .inr h1
  · exact .inl h1
  · exfalso
    obtain ⟨pre, post, htr⟩ := List.append_of_mem hr
    rcases h.evOk pre _ post htr with h3 | ⟨_, h3⟩
    · have : Event.store o ∈ opEvs tr o := by rw [mem_opEvs rfl, htr]; simp [h3]
      simp [h2] at this
    · exact hno (h3.of_append ⟨_, htr.symm⟩)

/-- One receiver that drops its `RecvRef`s one after the other, and no cancelled senders. -/
def OneAtATime (tr : Trace W) : Prop :=
  SerialNotify tr ∧ ∀ n, .callDrop n ∈ tr → .rem n ∉ tr

theorem OneAtATime.not_overlapped (h : Exec c tr s) (h1 : OneAtATime tr) (o : Nat) : ¬ Overlapped tr o := by
  rintro ⟨pre, mid, rest, h2, h3, ⟨o', n, h4, h5, h6, h7⟩ | ⟨n, h4, h5, _⟩⟩
  · rcases List.mem_append.1 h5 with h5 | h5
    · obtain ⟨b, hb⟩ := h1.1 pre o _ o' h2 h5
      exact h7 b hb
    · obtain ⟨a, d, rfl⟩ := List.append_of_mem h5
      obtain ⟨b, hb⟩ := h1.1 (pre ++ .callNotify o :: a) o' (d ++ rest) o (by rw [h2]; simp) (by simp)
      have hb : Event.retNotify o b ∈ pre := by
        simp only [List.mem_append, List.mem_cons, reduceCtorEq, false_or] at hb
        rcases hb with hb | hb
        · exact hb
        · exact absurd (by simp [hb]) (h3 b)
      have hev : opEvs tr o = opEvs pre o ++ .callNotify o :: opEvs (a ++ .callNotify o' :: d ++ rest) o := by
        rw [h2]; simp [opEvs, Event.byOp]
      have hx : opEvs pre o ≠ [] := by
        intro hx
        rw [← mem_opEvs (o := o) rfl, hx] at hb
        cases hb
      obtain ⟨x, l, hl⟩ := List.exists_cons_of_ne_nil hx
      rw [hl] at hev
      have hc : Event.callNotify o ∈ (opEvs tr o).tail := by rw [hev]; simp
      rcases h.retNotify_cases (o := o) (b := b) (by rw [h2]; simp [hb]) with
        ⟨_, h8⟩ | ⟨_, m, v, h8⟩ | ⟨_, _, h8⟩ <;> simp [h8] at hc
  · refine h1.2 n ?_ ?_
    · rw [h2]; simp at h4 ⊢; rcases h4 with h4 | h4 <;> simp [h4]
    · rw [h2]; simp at h5 ⊢; rcases h5 with h5 | h5 <;> simp [h5]

/-- **C26.** A receiver that drops its `RecvRef`s one at a time, no cancellation, any
interleaving with the senders: a `notify` wakes exactly one waiting sender, or it stores
exactly one notification. -/
theorem C26_notify (h : Exec c tr s) (h1 : OneAtATime tr) {o : Nat} {b : Bool}
    (hr : .retNotify o b ∈ tr) :
    (b = true ∧ ∃ n v, opEvs tr o = [.callNotify o, .deq o n, .wake o n v, .retNotify o true]) ∨
    (b = false ∧ opEvs tr o = [.callNotify o, .store o, .retNotify o false]) :=
  C26_notify_alone h hr (h1.not_overlapped h o)

example : ∃ s, Exec (demoC true) (demoTr.take 20) s ∧ OneAtATime (demoTr.take 20) ∧
    Event.retNotify 0 true ∈ demoTr.take 20 := by
  obtain ⟨s, hs⟩ := Exec.of_trace (c := demoC true) (acts := aStart 1 10 6 ++ aStart 2 20 6 ++
    aStart 3 30 6 ++ aNotify 0 7) (tr := demoTr.take 20) (by decide +kernel)
  refine ⟨s, hs, ⟨?_, ?_⟩, by decide⟩
  · intro pre o post o' h
    exact demo_serial pre o (post ++ demoTr.drop 20) o' (by
      have := (List.take_append_drop 20 demoTr).symm
      rw [h] at this
      simpa using this)
  · intro n hn; simp [demoTr] at hn

/-- With overlapping `notify` calls, in a release build, a notification can be lost: two calls
have returned, one sender was woken, nothing is stored, and a sender that comes later goes to
sleep. -/
theorem C26_notification_lost : ∃ s tr1 tr2, Exec (demoC false) (tr1 ++ tr2) s ∧
    .retNotify 0 true ∈ tr1 ∧ .retNotify 1 false ∈ tr1 ∧
    opEvs (tr1 ++ tr2) 0 = [.callNotify 0, .deq 0 1, .wake 0 1 10, .retNotify 0 true] ∧
    opEvs (tr1 ++ tr2) 1 = [.callNotify 1, .retNotify 1 false] ∧
    tr2.head? = some (.callStart 2 20) ∧ .retStart 2 .wait ∈ tr2 := by
  obtain ⟨s, hs⟩ := lost_exec
  exact ⟨s, lostTr.take 11, lostTr.drop 11, hs, by decide, by decide, by decide, by decide,
    by decide, by decide⟩

/-- The same with a cancelled sender instead of the second `notify`. -/
theorem C26_notification_lost_by_cancel : ∃ s tr1 tr2, Exec (demoC false) (tr1 ++ tr2) s ∧
    opEvs (tr1 ++ tr2) 0 = [.callNotify 0, .retNotify 0 false] ∧ .retNotify 0 false ∈ tr1 ∧
    .free 1 ∈ tr1 ∧ tr2.head? = some (.callStart 2 20) ∧ .retStart 2 .wait ∈ tr2 := by
  obtain ⟨s, hs⟩ := cancel_exec2
  exact ⟨s, cancelTr2.take 10, cancelTr2.drop 10, hs, by decide, by decide, by decide, by decide,
    by decide⟩

/-- **C26.** A notification is stored only when nobody is waiting, and never in a closed
queue. -/
theorem C26_store_if_none_waits (h : ExecM bm c tr s) {pre post : Trace W} {o : Nat}
    (htr : tr = pre ++ .store o :: post) : queueOf pre = [] ∧ ∀ o', .closing o' ∉ pre :=
  h.evOk pre _ post htr

example : ∃ s pre post, Exec (demoC true) demoTr2 s ∧ demoTr2 = pre ++ .store 1 :: post := by
  obtain ⟨s, hs⟩ := demo_exec2
  exact ⟨s, demoTr2.take 4, demoTr2.drop 5, hs, by decide⟩

/-- **C26.** A stored notification is consumed at most once: every consumption has a store of
its own before it. -/
theorem C26_consumed_once (h : ExecM bm c tr s) {pre post : Trace W} {n : Nat}
    (htr : tr = pre ++ .consume n :: post) :
    ∃ a o b, pre = a ++ .store o :: b ∧ ∀ m, .consume m ∉ b :=
  (stored_iff pre).1 (h.evOk pre _ post htr)

/-- **C26.** `start_wait` says "notified" exactly when it consumed the stored notification. -/
theorem C26_start_notified (h : ExecM bm c tr s) {pre post : Trace W} {n : Nat}
    (htr : tr = pre ++ .retStart n .notified :: post) : ∃ p, pre = p ++ [.consume n] := by
  obtain ⟨p, h1, _⟩ := h.evOk pre _ post htr
  exact ⟨p, h1⟩

example : ∃ s pre post, Exec (demoC true) demoTr2 s ∧ demoTr2 = pre ++ .consume 1 :: post ∧
    Event.retStart 1 .notified ∈ post := by
  obtain ⟨s, hs⟩ := demo_exec2
  exact ⟨s, demoTr2.take 7, demoTr2.drop 8, hs, by decide, by decide⟩

/-- **C26.** `continue_wait` says "notified" only if a `notify` took the node since it was
enqueued. -/
theorem C26_cont_notified (h : ExecM bm c tr s) {pre post : Trace W} {n : Nat}
    (htr : tr = pre ++ .retCont n .notified :: post) :
    ∃ a o b, pre = a ++ .deq o n :: b ∧ (∀ v, .enq n v ∉ b) ∧ .callNotify o ∈ pre := by
  obtain ⟨_, o, h1, h2⟩ := h.evOk pre _ post htr
  obtain ⟨a, b, h3, h4⟩ := takenBy_some h1
  exact ⟨a, o, b, h3, h4, h2⟩

example : ∃ s pre post, Exec (demoC true) demoTr s ∧ demoTr = pre ++ .retCont 1 .notified :: post := by
  obtain ⟨s, hs⟩ := demo_exec
  exact ⟨s, demoTr.take 21, demoTr.drop 22, hs, by decide⟩

/-- **C26.** Nobody starts to wait while there is a stored notification, unless the queue was
closed. (In a release build and with overlapping `notify` calls this can happen too:
`C26_stored_overwritten`.) -/
theorem C26_stored_not_lost (h : Exec c tr s) {pre a b post : Trace W} {n o : Nat} {v : W}
    (htr : tr = pre ++ .enq n v :: post) (hpre : pre = a ++ .store o :: b)
    (hcl : ∀ o', .closing o' ∉ pre) (hno : c.debug = true ∨ ∀ o', ¬ Overlapped tr o') :
    ∃ m, .consume m ∈ b := by
  rcases Classical.em (∃ m, Event.consume m ∈ b) with h1 | h1
  · exact h1
  · exfalso
    have h2 := (h.evOk pre _ post htr).2.2.2.2
      ((stored_iff pre).2 ⟨a, o, b, hpre, fun m hm => h1 ⟨m, hm⟩⟩)
    rcases h2 with ⟨o', h2⟩ | ⟨h2, o', h3⟩
    · exact hcl o' h2
    · rcases hno with h4 | h4
      · rw [h2] at h4; cases h4
      · exact h4 o' (h3.of_append ⟨_, htr.symm⟩)

example : ∃ s pre a b post, Exec (demoC true) demoTr2 s ∧ demoTr2 = pre ++ .enq 1 11 :: post ∧
    pre = a ++ .store 1 :: b ∧ ∀ o, .closing o ∉ pre := by
  obtain ⟨s, hs⟩ := demo_exec2
  exact ⟨s, demoTr2.take 11, demoTr2.take 4, (demoTr2.drop 5).take 6, demoTr2.drop 12, hs,
    by decide, by decide, by simp [demoTr2]⟩

/-- With overlapping `notify` calls, in a release build, a stored notification can be
overwritten: nobody consumed it, and a sender that comes later goes to sleep. -/
theorem C26_stored_overwritten : ∃ s pre b post, Exec (demoC false) (pre ++ .store 2 :: (b ++
    .callStart 2 20 :: post)) s ∧ .retNotify 2 false ∈ b ∧ .retStart 2 .wait ∈ post ∧
    ∀ m, .consume m ∉ b ++ post := by
  obtain ⟨s, hs⟩ := over_exec
  refine ⟨s, overTr.take 11, (overTr.drop 12).take 2, overTr.drop 15, hs, by decide, by decide, ?_⟩
  intro m hm; simp [overTr] at hm

/-- **C26.** A sender that is told to wait is in the list at that moment, so that a `notify` can
find it. -/
theorem C26_wait_is_queued (h : ExecM bm c tr s) {pre post : Trace W} {n : Nat}
    (htr : tr = pre ++ .retStart n .wait :: post ∨ tr = pre ++ .retCont n .wait :: post) :
    n ∈ queueOf pre := by
  have hok := h.evOk
  rcases htr with htr | htr
  · obtain ⟨p, v, rfl⟩ := hok pre _ post htr
    rw [queueOf_snoc]
    simp [qstep]
  · exact (hok pre _ post htr).1

example : ∃ s pre post, Exec (demoC true) demoTr s ∧ demoTr = pre ++ .retStart 3 .wait :: post := by
  obtain ⟨s, hs⟩ := demo_exec
  exact ⟨s, demoTr.take 13, demoTr.drop 14, hs, by decide⟩

/-! ## Closing -/

/-- **C27.** When the receiver has been dropped, every sender that ever waited has been taken
and woken since, or has removed its node itself. -/
theorem C27_all_woken (h : ExecM bm c tr s) {pre post : Trace W} {o : Nat}
    (htr : tr = pre ++ .retClose o :: post) {a b : Trace W} {n : Nat} {v : W}
    (hpre : pre = a ++ .enq n v :: b) :
    .rem n ∈ b ∨ ∃ o' b1 b2 w, b = b1 ++ .deq o' n :: b2 ∧ .wake o' n w ∈ b2 := by
  have hok := h.evOk
  have hp : AllOk (EvOkM bm c) pre := hok.prefix ⟨_, htr.symm⟩
  have hq := (hok pre _ post htr).1
  rcases Classical.em (.rem n ∈ b) with h1 | h1
  · exact .inl h1
  right
  have h2 : ∃ o', Event.deq o' n ∈ b := by
    rcases Classical.em (∃ o', Event.deq o' n ∈ b) with h2 | h2
    · exact h2
    · exfalso
      have : n ∈ queueOf pre := by
        rw [mem_queueOf hp]
        refine ⟨a, v, b, hpre, ?_⟩
        rintro e he (⟨o', rfl⟩ | rfl)
        · exact h2 ⟨o', he⟩
        · exact h1 he
      simp [hq] at this
  obtain ⟨o', h2⟩ := h2
  obtain ⟨b1, b2, rfl⟩ := List.append_of_mem h2
  obtain ⟨s0, h3, h4⟩ := h.at_retClose htr
  have hi := h3.inv
  have hcrit : (s0.pc (.op o)).crit = true := by rw [h4]; rfl
  have hrx := hi.rxB (hi.clos (.op o) (by rw [h4]; rfl))
  obtain ⟨w, h5⟩ := h3.deq_then_wake (o := o') (n := n) (a := a ++ .enq n v :: b1) (b := b2)
    (by rw [hpre]; simp) (by
      have h6 : (s0.pc (.op o')).inNotify ≠ true := by
        intro h6
        obtain ⟨o2, _, h7⟩ := hi.borrow _ h6
        rw [hrx] at h7; cases h7
      have h8 := fun hc => hi.excl (t := .op o') (u := .op o) hc hcrit
      intro hh
      cases hpc : s0.pc (.op o') <;> rw [hpc] at h6 h8 hh
      case cWake =>
        have := h8 rfl
        rw [this, h4] at hpc; cases hpc
      all_goals first
        | exact hh
        | exact h6 rfl)
  exact ⟨o', b1, b2, w, rfl, h5⟩

example : ∃ s pre post a b, Exec (demoC true) demoTr s ∧ demoTr = pre ++ .retClose 9 :: post ∧
    pre = a ++ .enq 2 20 :: b := by
  obtain ⟨s, hs⟩ := demo_exec
  exact ⟨s, demoTr.take 45, demoTr.drop 46, demoTr.take 7, (demoTr.drop 8).take 37, hs, by decide,
    by decide⟩

/-- **C27.** After the receiver has been dropped nobody starts to wait, and no call says
`Wait`. -/
theorem C27_no_wait_after (h : ExecM bm c tr s) {pre post : Trace W} {o : Nat}
    (htr : tr = pre ++ .retClose o :: post) (n : Nat) :
    (∀ v, .enq n v ∉ post) ∧ .retStart n .wait ∉ post ∧ .retCont n .wait ∉ post := by
  have hok := h.evOk
  have h1 : ∀ m v, .enq m v ∉ post := by
    intro m v hm
    obtain ⟨a, b, rfl⟩ := List.append_of_mem hm
    have := hok (pre ++ .retClose o :: a) (.enq m v) b (by rw [htr]; simp)
    exact this.2.2.2.1 o (by simp)
  refine ⟨h1 n, ?_, ?_⟩
  · intro hm
    obtain ⟨a, b, rfl⟩ := List.append_of_mem hm
    obtain ⟨p, v, h2⟩ := hok (pre ++ .retClose o :: a) (.retStart n .wait) b (by rw [htr]; simp)
    rcases List.eq_nil_or_concat a with rfl | ⟨a', x, rfl⟩
    · have := (List.append_inj' h2 rfl).2
      simp at this
    · have h3 : pre ++ .retClose o :: a' ++ [x] = p ++ [.enq n v] := by rw [← h2]; simp
      have := (List.append_inj' h3 rfl).2
      simp only [List.cons.injEq, and_true] at this
      exact h1 n v (by simp [this])
  · intro hm
    obtain ⟨a, b, rfl⟩ := List.append_of_mem hm
    obtain ⟨h2, _⟩ := hok (pre ++ .retClose o :: a) (.retCont n .wait) b (by rw [htr]; simp)
    have hp : AllOk (EvOkM bm c) (pre ++ .retClose o :: a) :=
      hok.prefix ⟨.retCont n .wait :: b, by rw [htr]; simp⟩
    obtain ⟨p, v, d, h3, h4⟩ := (mem_queueOf hp).1 h2
    rcases append_split h3 with ⟨post', h5, h6⟩ | ⟨e1, h5, h6⟩
    · have : n ∈ queueOf pre := by
        rw [mem_queueOf (hok.prefix ⟨_, htr.symm⟩)]
        exact ⟨p, v, post', h6, fun e he => h4 e (by rw [h5]; simp [he])⟩
      have h7 := (hok pre _ _ htr).1
      rw [h7] at this; cases this
    · cases e1 with
      | nil => simp at h5
      | cons x e1 =>
        simp only [List.cons_append, List.cons.injEq] at h5
        exact h1 n v (by rw [h5.2]; simp)

/-- **C27.** A `start_wait` called after the receiver's drop closed the queue returns
`Closed`. -/
theorem C27_start_closed (h : ExecM bm c tr s) {p1 p2 p3 p4 : Trace W} {o n : Nat} {v : W} {r : Res3}
    (htr : tr = p1 ++ .closing o :: (p2 ++ .callStart n v :: (p3 ++ .retStart n r :: p4))) :
    r = .closed := by
  have hok := h.evOk
  have h1 := hok (p1 ++ .closing o :: (p2 ++ .callStart n v :: p3)) (.retStart n r) p4
    (by rw [htr]; simp)
  cases r with
  | closed => rfl
  | notified =>
    exfalso
    obtain ⟨p, h2, h3⟩ := h1
    apply h3 o
    have : Event.closing o ∈ p ++ [.consume n] := by rw [← h2]; simp
    simpa using this
  | wait =>
    exfalso
    obtain ⟨p, w, h2⟩ := h1
    have h3 : Event.callStart n v ∈ p := by
      have : Event.callStart n v ∈ p ++ [.enq n w] := by rw [← h2]; simp
      simpa using this
    obtain ⟨pre, post, h4, ⟨h5, _⟩, h6⟩ :=
      (hok p (.enq n w) (.retStart n .wait :: p4) (by
        have : tr = (p1 ++ .closing o :: (p2 ++ .callStart n v :: p3)) ++ .retStart n .wait :: p4 := by
          rw [htr]; simp
        rw [this, h2]; simp)).2.2.1
    have h7 : (p1 ++ .closing o :: p2) ++ .callStart n v :: p3 =
        pre ++ .callStart n w :: (post ++ [.enq n w]) := by
      have : (p1 ++ .closing o :: p2) ++ .callStart n v :: p3 = p ++ [.enq n w] := by
        rw [← h2]; simp
      rw [this, h4]; simp
    rcases append_split h7 with ⟨post', h8, h9⟩ | ⟨e1, h8, h9⟩
    · -- the call would be an earlier one
      have : Event.callStart n v ∈ post ++ [.enq n w] := by rw [h8]; simp
      simp only [List.mem_append, List.mem_singleton, reduceCtorEq, or_false] at this
      exact h5 v this
    · exact h6 rfl o (by rw [h9]; simp)

example : ∃ s p1 p2 p3 p4, Exec (demoC true) demoTr s ∧
    demoTr = p1 ++ .closing 9 :: (p2 ++ .callStart 5 50 :: (p3 ++ .retStart 5 .closed :: p4)) := by
  obtain ⟨s, hs⟩ := demo_exec
  exact ⟨s, demoTr.take 37, (demoTr.drop 38).take 10, [], [], hs, by decide⟩

/-- **C27.** A sender that was waiting when the receiver's drop closed the queue is not told
that it was notified; once the drop has finished, it is told `Closed`. -/
theorem C27_cont_closed (h : ExecM bm c tr s) {p1 p2 p3 : Trace W} {o n : Nat} {r : Res3}
    (htr : tr = p1 ++ .closing o :: (p2 ++ .retCont n r :: p3)) (hn : n ∈ queueOf p1) :
    r ≠ .notified ∧ (.retClose o ∈ p2 → r = .closed) := by
  have hok := h.evOk
  have key : r ≠ .notified := by
    rintro rfl
    obtain ⟨_, o', h1, h2⟩ := hok (p1 ++ .closing o :: p2) (.retCont n .notified) p3 (by rw [htr]; simp)
    obtain ⟨a, b, h3, h4⟩ := takenBy_some h1
    rcases append_split h3 with ⟨post', h5, h6⟩ | ⟨e1, h5, h6⟩
    · -- the node would have been taken before the queue was closed
      obtain ⟨a', v, b', h7, h8⟩ := (mem_queueOf (hok.prefix ⟨_, htr.symm⟩)).1 hn
      rw [h6] at h7
      rcases append_split h7 with ⟨q, h9, h10⟩ | ⟨e1, h9, h10⟩
      · exact h8 (.deq o' n) (by rw [h9]; simp) (.inl ⟨o', rfl⟩)
      · cases e1 with
        | nil => simp at h9
        | cons x e1 =>
          simp only [List.cons_append, List.cons.injEq] at h9
          exact h4 v (by rw [h5, h9.2]; simp)
    · cases e1 with
      | nil => simp at h5
      | cons x e1 =>
        simp only [List.cons_append, List.cons.injEq] at h5
        obtain ⟨rfl, h5⟩ := h5
        have h7 := (hok (p1 ++ .closing o :: e1) (.deq o' n) (b ++ .retCont n .notified :: p3)
          (by rw [htr, h5]; simp)).2
        rcases h7 with ⟨_, h7⟩ | h7
        · exact h7 o (by simp)
        · refine h.notify_not_close (o := o') ?_ ?_
          · have : tr = (p1 ++ .closing o :: p2) ++ .retCont n .notified :: p3 := by rw [htr]; simp
            rw [this]; exact List.mem_append_left _ h2
          · rw [htr, h5]
            simp only [List.mem_append, List.mem_cons] at h7 ⊢
            rcases h7 with h7 | h7 | h7 <;> simp [h7]
  refine ⟨key, fun hc => ?_⟩
  obtain ⟨a, b, rfl⟩ := List.append_of_mem hc
  have h1 := (C27_no_wait_after h (pre := p1 ++ .closing o :: a) (post := b ++ .retCont n r :: p3)
    (o := o) (by rw [htr]; simp) n).2.2
  cases r with
  | closed => rfl
  | notified => exact absurd rfl key
  | wait => exact absurd (by simp) h1

example : ∃ s p1 p2 p3, Exec (demoC true) demoTr s ∧
    demoTr = p1 ++ .closing 9 :: (p2 ++ .retCont 2 .closed :: p3) ∧ 2 ∈ queueOf p1 ∧
    Event.retClose 9 ∈ p2 := by
  obtain ⟨s, hs⟩ := demo_exec
  exact ⟨s, demoTr.take 37, (demoTr.drop 38).take 9, demoTr.drop 48, hs, by decide, by decide,
    by decide⟩

/-- **C33**, for the wait queue: a sender that is about to wait is told `Closed` only after the
receiver's drop closed the queue; one that waits, only if that drop took its node. -/
theorem C33_closed_truthful (h : ExecM bm c tr s) {pre post : Trace W} {n : Nat} :
    (tr = pre ++ .retStart n .closed :: post → ∃ o, .closing o ∈ pre) ∧
    (tr = pre ++ .retCont n .closed :: post → ∃ o a b, pre = a ++ .deq o n :: b ∧
      (∀ v, .enq n v ∉ b) ∧ .callClose o ∈ pre) := by
  have hok := h.evOk
  constructor
  · intro htr
    exact hok pre _ post htr
  · intro htr
    obtain ⟨_, o, h1, h2⟩ := hok pre _ post htr
    obtain ⟨a, b, h3, h4⟩ := takenBy_some h1
    exact ⟨o, a, b, h3, h4, h2⟩

example : ∃ s pre post, Exec (demoC true) demoTr s ∧ demoTr = pre ++ .retCont 2 .closed :: post := by
  obtain ⟨s, hs⟩ := demo_exec
  exact ⟨s, demoTr.take 47, demoTr.drop 48, hs, by decide⟩

/-! ## Cancellation and time-outs -/

/-- If `List::dequeue` were atomic, as it is in this model but not in the code, the memory of a
node would never be accessed through the list after it was freed by the drop of the future
that contains it. For the code this is false: `C28_false_cancel` of `QueueFineProps`, where C28
is treated. -/
theorem atomic_no_access_after_free (h : ExecM bm c tr s) {pre post : Trace W} {t : Tid} {n : Nat}
    (htr : tr = pre ++ .touch t n :: post) (hg : .giveUp n ∉ pre) : .free n ∉ pre := by
  intro hf
  rcases h.evOk pre _ post htr with ⟨_, h1⟩ | ⟨_, h1⟩
  · exact hg (h1 hf)
  · exact h1 hf

example : ∃ s pre post, Exec (demoC true) demoTr s ∧ demoTr = pre ++ .touch (.op 9) 4 :: post ∧
    Event.giveUp 4 ∉ pre ∧ Event.free 3 ∈ pre := by
  obtain ⟨s, hs⟩ := demo_exec
  exact ⟨s, demoTr.take 39, demoTr.drop 40, hs, by decide, by decide, by decide⟩

/-- If `List::dequeue` were atomic: once a send future has been dropped, no pointer of the list,
neither its ends nor a link of any node, points to the node of the future. See
`C28_no_pointer_partial` of `QueueFineProps` for the code. -/
theorem atomic_no_pointer (h : ExecM bm c tr s) {n : Nat} (hf : .free n ∈ tr) (hg : .giveUp n ∉ tr) :
    n ∉ queueOf tr ∧ s.list.head ≠ some n ∧ s.list.tail ≠ some n ∧
      ∀ m, (s.list.node m).next ≠ some n ∧ (s.list.node m).prev ≠ some n := by
  have hn : n ∉ queueOf tr := fun hn => hg (h.freed_waiting hn hf)
  have hr := h.inv.rep
  refine ⟨hn, ?_, ?_, ?_⟩
  · rw [hr.head]
    intro he
    exact hn (List.mem_of_head? he)
  · rw [hr.tail]
    intro he
    exact hn (List.mem_of_getLast? he)
  · intro m
    by_cases hm : m ∈ queueOf tr
    · obtain ⟨l1, l2, h1⟩ := List.append_of_mem hm
      obtain ⟨h2, h3⟩ := hr.links l1 m l2 h1
      rw [h2, h3]
      constructor
      · intro he
        exact hn (by rw [h1]; simp [List.mem_of_head? he])
      · intro he
        exact hn (by rw [h1]; simp [List.mem_of_getLast? he])
    · obtain ⟨h2, h3⟩ := hr.off m hm
      rw [h2, h3]
      simp

example : ∃ s, Exec (demoC true) demoTr s ∧ Event.free 3 ∈ demoTr ∧ Event.giveUp 3 ∉ demoTr := by
  obtain ⟨s, hs⟩ := demo_exec
  exact ⟨s, hs, by decide, by decide⟩

/-- **C28.** The removal of a node leaves the other nodes, in the same order. -/
theorem C28_others_unchanged (h : ExecM bm c tr s) {pre post : Trace W} {n : Nat}
    (htr : tr = pre ++ .rem n :: post) :
    queueOf (pre ++ [.rem n]) = (queueOf pre).filter (· ≠ n) := by
  rw [queueOf_snoc]
  have := queueOf_nodup (h.evOk.prefix ⟨_, htr.symm⟩)
  simp only [qstep]
  rw [this.erase_eq_filter]
  congr 1
  funext x
  by_cases hx : x = n <;> simp [hx]

example : ∃ s pre post, Exec (demoC true) demoTr s ∧ demoTr = pre ++ .rem 3 :: post ∧
    queueOf pre = [4, 3, 2] := by
  obtain ⟨s, hs⟩ := demo_exec
  exact ⟨s, demoTr.take 34, demoTr.drop 35, hs, by decide, by decide⟩

/-- **C29**, if the node is not in the list any more when the send gives up (it was notified at
the last moment): nothing accesses it again. (Missing: the case that it is in the list, in
which the claim is false: `C29_dangling`, `C29_use_after_free`.) -/
theorem C29_timeout_partial (h : ExecM bm c tr s) {p1 p2 p3 : Trace W} {t : Tid} {n : Nat}
    (htr : tr = p1 ++ .giveUp n :: (p2 ++ .touch t n :: p3)) : n ∈ queueOf p1 := by
  have hok := h.evOk
  have htr1 : tr = (p1 ++ .giveUp n :: p2) ++ .touch t n :: p3 := by rw [htr]; simp
  have hf := h.giveUp_free htr1 (n := n) (by simp) (by simp)
  have h1 : n ∈ queueOf (p1 ++ .giveUp n :: p2) := by
    rcases hok _ _ _ htr1 with ⟨h1, _⟩ | ⟨_, h1⟩
    · exact h1
    · exact absurd hf h1
  obtain ⟨a, v, b, h2, h3⟩ := (mem_queueOf (hok.prefix ⟨_, htr1.symm⟩)).1 h1
  rcases append_split h2 with ⟨post', h5, h6⟩ | ⟨e1, h5, h6⟩
  · rw [mem_queueOf (hok.prefix ⟨_, htr.symm⟩)]
    exact ⟨a, v, post', h6, fun e he => h3 e (by rw [h5]; simp [he])⟩
  · cases e1 with
    | nil => simp at h5
    | cons x e1 =>
      exfalso
      simp only [List.cons_append, List.cons.injEq] at h5
      obtain ⟨rfl, h5⟩ := h5
      have htr2 : tr = (p1 ++ .giveUp n :: e1) ++ .enq n v :: (b ++ .touch t n :: p3) := by
        rw [htr, h5]; simp
      exact (hok _ _ _ htr2).2.1 (h.giveUp_free htr2 (by simp) (by simp))

/-- A send can give up after it was notified, so that the theorem applies: nobody accesses it
again. -/
example : ∃ s p1 p2, Exec (demoC true) lateTr s ∧ lateTr = p1 ++ .giveUp 1 :: p2 ∧
    1 ∉ queueOf p1 := by
  obtain ⟨s, hs⟩ := late_exec
  exact ⟨s, lateTr.take 9, lateTr.drop 10, hs, by decide, by decide⟩

/-- **C29 is false.** Whenever a blocking send gives up while its node is in the list, the list
goes on referring to the freed frame of the call, until some `notify` or `close` takes it. -/
theorem C29_dangling (h : ExecM bm c tr s) {p1 p2 : Trace W} {n : Nat}
    (htr : tr = p1 ++ .giveUp n :: .free n :: p2) (hn : n ∈ queueOf p1) (hd : ∀ o, .deq o n ∉ p2) :
    ∀ k, (queueOf tr).length ≤ k → n ∈ walkNext s.list.node k s.list.head := by
  intro k hk
  rw [(C25_list_is_queue h k hk).1]
  have hok := h.evOk
  obtain ⟨a, v, b, h1, h2⟩ := (mem_queueOf (hok.prefix ⟨_, htr.symm⟩)).1 hn
  rw [mem_queueOf hok]
  refine ⟨a, v, b ++ .giveUp n :: .free n :: p2, by rw [htr, h1]; simp, ?_⟩
  intro e he
  simp only [List.mem_append, List.mem_cons] at he
  rcases he with he | rfl | rfl | he
  · exact h2 e he
  · simp [Event.leaves]
  · simp [Event.leaves]
  · rintro (⟨o, rfl⟩ | rfl)
    · exact hd o he
    · obtain ⟨x, y, rfl⟩ := List.append_of_mem he
      have := hok (p1 ++ .giveUp n :: .free n :: x) (.rem n) y (by rw [htr]; simp)
      exact this (by simp)

/-- **C29 is false.** After a blocking send has timed out and its frame has been freed, a
`notify` accesses the frame. -/
theorem C29_use_after_free : ∃ s p1 p2 p3, Exec (demoC true) (p1 ++ .giveUp 1 :: .free 1 :: (p2 ++
    .touch (.op 0) 1 :: p3)) s := by
  obtain ⟨s, hs⟩ := dangling_exec
  exact ⟨s, danglingTr.take 4, [.callNotify 0], danglingTr.drop 8, hs⟩

/-! ## Assertions -/

/-- **C30**, as far as it is true: the only assertion that can fail is the one of a `notify`
that finds nobody in the list, and only if another call took a node while it was in progress.
(Missing: that it does not fail then, which is false: `C30_two_notifies`, `C30_cancel`.) -/
theorem C30_assertions_partial (h : Exec c tr s) {pre post : Trace W} {t : Tid}
    (htr : tr = pre ++ .assertFailed t :: post) :
    ∃ o, t = .op o ∧ .callNotify o ∈ pre ∧ Overlapped pre o := by
  obtain ⟨o, h1, _, h2⟩ := h.evOk pre _ post htr
  refine ⟨o, h1, ?_, h2⟩
  obtain ⟨a, b, d, h3, _⟩ := h2
  rw [h3]; simp

/-- **C30 is false**: the assertion fails if two `notify` calls overlap. -/
theorem C30_two_notifies : ∃ tr s, Exec (demoC true) tr s ∧ .assertFailed (.op 1) ∈ tr ∧
    (∀ n, .callDrop n ∉ tr ∧ .giveUp n ∉ tr) ∧ ∀ o, .callClose o ∉ tr := by
  obtain ⟨s, hs⟩ := fail_exec
  exact ⟨failTr, s, hs, by decide, by simp [failTr], by simp [failTr]⟩

/-- **C30 is false**: the assertion of the only `notify` call fails if a waiting send is
cancelled meanwhile. -/
theorem C30_cancel : ∃ tr s, Exec (demoC true) tr s ∧ .assertFailed (.op 0) ∈ tr ∧
    (∀ o, .callNotify o ∈ tr → o = 0) ∧ (∀ n, .giveUp n ∉ tr) ∧ ∀ o, .callClose o ∉ tr := by
  obtain ⟨s, hs⟩ := cancel_exec
  exact ⟨cancelTr, s, hs, by decide, by simp [cancelTr], by simp [cancelTr], by simp [cancelTr]⟩

/-! ## Which waker is woken -/

/-- **C47.** The waiter that is woken is the one recorded for the node when it was taken. -/
theorem C47_woken_is_recorded (h : ExecM bm c tr s) {pre post : Trace W} {o n : Nat} {v : W}
    (htr : tr = pre ++ .wake o n v :: post) :
    ∃ p1 p2, pre = p1 ++ .deq o n :: p2 ∧ given p1 n = some v :=
  h.evOk pre _ post htr

/-- **C47.** What is recorded when a sender starts to wait is the waiter it passed in. -/
theorem C47_start_records (h : ExecM bm c tr s) {pre post : Trace W} {n : Nat} {v : W}
    (htr : tr = pre ++ .enq n v :: post) :
    ∃ a b, pre = a ++ .callStart n v :: b ∧ (∀ u, .callStart n u ∉ b) ∧ ∀ r, .retStart n r ∉ b := by
  obtain ⟨a, b, h1, ⟨h2, h3⟩, _⟩ := (h.evOk pre _ post htr).2.2.1
  exact ⟨a, b, h1, h2, h3⟩

/-- **C47.** A sender that polls again and is told to wait has recorded the waiter it passed in,
or one that wakes the same task; the record does not change in between. -/
theorem C47_cont_records (h : ExecM bm c tr s) (hrefl : ∀ v, c.same v v = true)
    {pre post : Trace W} {n : Nat} (htr : tr = pre ++ .retCont n .wait :: post) :
    ∃ a v b w, pre = a ++ .callCont n v :: b ∧ (∀ u, .callCont n u ∉ b) ∧
      (∀ r, .retCont n r ∉ b) ∧ given pre n = some w ∧ c.same w v = true := by
  have hok := h.evOk
  obtain ⟨_, p, w, rfl⟩ := hok pre _ post htr
  obtain ⟨_, v, u, ⟨a, b, h1, h2, h3⟩, h4, h5⟩ := hok p (.upd n w) (.retCont n .wait :: post)
    (by rw [htr]; simp)
  refine ⟨a, v, b ++ [.upd n w], w, by rw [h1]; simp, by simpa using h2, by simpa using h3, ?_, ?_⟩
  · rw [given_append]; simp [gstep]
  · rw [h5]
    split
    · assumption
    · exact hrefl v

example : ∃ s pre post, Exec (demoC true) demoTr s ∧ demoTr = pre ++ .retCont 2 .wait :: post ∧
    given pre 2 = some 21 ∧ Event.wake 9 2 21 ∈ post ∧ ∀ v, (demoC true).same v v = true := by
  obtain ⟨s, hs⟩ := demo_exec
  exact ⟨s, demoTr.take 24, demoTr.drop 25, hs, by decide, by decide, by decide, by simp [demoC]⟩

end Thingbuf.Queue
