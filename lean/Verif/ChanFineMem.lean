import Verif.ChanFineTrace
import Verif.ChanSleep

/-!
# Accesses to the memory of wait nodes, at the level of the channel
-/

namespace Thingbuf.Queue

variable {W : Type} {c : Config W}

/-- The accesses of a step come first, and are all by one thread; then comes the dequeue, if there is one. -/
def TouchFirst (s : State W) (evs : List (Event W)) : Prop :=
  ∃ t ts rest, evs = ts.map (.touch t) ++ rest ∧ (∀ e ∈ rest, e.isTouch = false) ∧ (∀ e ∈ rest.tail, ∀ o n, e ≠ .deq o n) ∧
    (ts ≠ [] → ∀ m, t = .node m → Chan.NodeNext.startPC (s.pc (.node m)) = true ∨ Chan.NodeNext.remPC (s.pc (.node m)) = true)

theorem TouchFirst.none {s : State W} {evs : List (Event W)} (h : evs.all fun e => !e.isTouch) (h' : evs.tail.all fun | .deq _ _ => false | _ => true) :
    TouchFirst s evs := by
  refine ⟨.op 0, [], evs, rfl, fun e he => ?_, fun e he o n => ?_, by simp⟩
  · simpa using List.all_eq_true.1 h e he
  · rintro rfl
    simpa using List.all_eq_true.1 h' _ he

theorem TouchFirst.some {s : State W} (t : Tid) (ts : List Nat) {rest : List (Event W)} (h : rest.all fun e => !e.isTouch)
    (h' : rest.tail.all fun | .deq _ _ => false | _ => true)
    (hm : ∀ m, t = .node m → Chan.NodeNext.startPC (s.pc (.node m)) = true ∨ Chan.NodeNext.remPC (s.pc (.node m)) = true) :
    TouchFirst s (ts.map (.touch t) ++ rest) := by
  refine ⟨t, ts, rest, rfl, fun e he => ?_, fun e he o n => ?_, fun _ => hm⟩
  · simpa using List.all_eq_true.1 h e he
  · rintro rfl
    simpa using List.all_eq_true.1 h' _ he

theorem TouchFirst.deq {s : State W} (o : Nat) (ts : List Nat) (v) {rest : List (Event W)} (h : rest.all fun e => !e.isTouch)
    (h' : rest.all fun | .deq _ _ => false | _ => true) : TouchFirst s (ts.map (.touch (.op o)) ++ (deqEvents o v ++ rest)) := by
  cases v with
  | none =>
    refine .some _ _ h ?_ (by simp)
    rw [List.all_eq_true] at h' ⊢
    exact fun e he => h' e (List.mem_of_mem_tail he)
  | some v => exact .some _ _ (by simpa [deqEvents, Event.isTouch] using h) h' (by simp)

theorem TouchFirst.deq' {s : State W} (o : Nat) (ts : List Nat) (v) : TouchFirst s (ts.map (.touch (.op o)) ++ deqEvents o v) := by
  have := TouchFirst.deq (s := s) (rest := []) o ts v rfl rfl
  rwa [List.append_nil] at this

theorem Tr.touchFirst {s : State W} {t p st lk l b rx evs} (h : Tr c s t p st lk l b rx evs) : TouchFirst s evs := by
  cases h
  case enq n v h => rw [List.append_assoc]; exact .some _ _ rfl rfl (by simp [h, Chan.NodeNext.startPC])
  case remAssert n h ho => rw [List.append_assoc]; exact .some _ _ rfl rfl (by simp [h, Chan.NodeNext.remPC])
  case rem n h => exact .some _ _ rfl rfl (by simp [h, Chan.NodeNext.remPC])
  all_goals first
    | exact .none rfl rfl
    | (rw [List.append_assoc]; exact .deq _ _ _ rfl rfl)
    | exact .deq' _ _ _

theorem fstep_touchFirst {f f' : FState W} {act : Act W} {evs : List (Event W)} (hs : fstep c f act = some (f', evs)) : TouchFirst f.q evs := by
  have lift : ∀ act : Act W, (Queue.step c f.q act).map (fun r => ((⟨r.1, f.half⟩ : FState W), r.2)) = some (f', evs) → TouchFirst f.q evs := by
    intro act hm
    cases hq : Queue.step c f.q act with
    | none => rw [hq] at hm; cases hm
    | some r =>
      rw [hq] at hm
      cases hm
      obtain ⟨_, _, _, _, _, _, _, _, h⟩ := step_tr hq
      exact h.touchFirst
  cases act with
  | op o spur =>
    simp only [fstep] at hs
    split at hs
    · rename_i o' t hh
      split at hs
      · cases hs
        simp only [deqRest]
        have base : TouchFirst f.q (.touch (.op o) t :: (f.q.list.node t).prev.toList.map (.touch (.op o))) :=
          ⟨.op o, t :: (f.q.list.node t).prev.toList, [], by simp, by simp, by simp, by simp⟩
        have failed : TouchFirst f.q (.touch (.op o) t :: (f.q.list.node t).prev.toList.map (.touch (.op o)) ++ [.assertFailed (.op o)]) :=
          ⟨.op o, t :: (f.q.list.node t).prev.toList, [.assertFailed (.op o)], by simp, by simp [Event.isTouch], by simp, by simp⟩
        split
        · split
          · unfold deqFail
            split <;> exact failed
          · exact base
        · exact base
      · exact lift _ hs
    · split at hs
      · rename_i ns t _ _
        have he : evs = (deqSwap c f.q o t ns).2 := by rw [Option.some.inj hs]
        rw [he]
        unfold deqSwap
        simp only
        split
        · unfold deqFail
          split <;> exact ⟨.op o, [t], [.deq o t, .assertFailed (.op o)], rfl, by simp [Event.isTouch], by simp, by simp⟩
        · exact ⟨.op o, [t], [.deq o t], rfl, by simp [Event.isTouch], by simp, by simp⟩
      · exact lift _ hs
  | _ => exact lift _ hs

theorem TouchFirst.split {s : State W} {evs e1 e2 : List (Event W)} {t : Tid} {n : Nat} (h : TouchFirst s evs) (he : evs = e1 ++ .touch t n :: e2) :
    quiet e1 = [] ∧ ∀ m, t = .node m → Chan.NodeNext.startPC (s.pc (.node m)) = true ∨ Chan.NodeNext.remPC (s.pc (.node m)) = true := by
  obtain ⟨t', ts, rest, h1, h2, -, h3⟩ := h
  rw [he] at h1
  rcases List.append_eq_append_iff.1 h1 with ⟨x, hx, hy⟩ | ⟨x, hx, hy⟩
  · cases x with
    | nil =>
      simp only [List.nil_append] at hy
      exact absurd (h2 (.touch t n) (by rw [← hy]; simp)) (by simp [Event.isTouch])
    | cons y x =>
      simp only [List.cons_append, List.cons.injEq] at hy
      obtain ⟨rfl, -⟩ := hy
      have hts : ts ≠ [] := by rintro rfl; simp at hx
      have ht : ∀ e ∈ e1 ++ Event.touch t n :: x, ∃ m, e = .touch t' m := by
        rw [← hx]; simp
      obtain ⟨m, hm⟩ := ht (.touch t n) (by simp)
      cases hm
      refine ⟨?_, h3 hts⟩
      simp only [quiet, List.filter_eq_nil_iff]
      intro e hm
      obtain ⟨m', rfl⟩ := ht e (by simp [hm])
      simp
  · exact absurd (h2 (.touch t n) (by rw [hy]; simp)) (by simp [Event.isTouch])

theorem TouchFirst.split_deq {s : State W} {evs e1 e2 : List (Event W)} {o n : Nat} (h : TouchFirst s evs) (he : evs = e1 ++ .deq o n :: e2) : quiet e1 = [] := by
  obtain ⟨t', ts, rest, h1, h2, h3, -⟩ := h
  rw [he] at h1
  have hts : ∀ e ∈ ts.map (Event.touch (W := W) t'), ∃ m, e = .touch t' m := by simp
  have key : ∀ l : List (Event W), (∀ e ∈ l, ∃ m, e = .touch t' m) → quiet l = [] := by
    intro l hl
    simp only [quiet, List.filter_eq_nil_iff]
    intro e he
    obtain ⟨m, rfl⟩ := hl e he
    simp
  rcases List.append_eq_append_iff.1 h1 with ⟨x, hx, hy⟩ | ⟨x, hx, hy⟩
  · exact key e1 fun e he => hts e (by rw [hx]; simp [he])
  · cases x with
    | nil => rw [List.append_nil] at hx; rw [hx]; exact key _ hts
    | cons z x =>
      rw [hy] at h3
      exact absurd rfl (h3 (.deq o n) (by simp) o n)

end Thingbuf.Queue

namespace Thingbuf.Chan

variable {w : Nat} {V W : Type} {c : Config W} {tr : Trace V W} {f : FState w V W}

/-- The step of an event of the wait queue. -/
theorem FExec.at_queue (h : FExec c tr f) {pre post : Trace V W} {e : Queue.Event W} (htr : tr = pre ++ .queue e :: post) :
    ∃ (tr0 : Trace V W) (f0 : FState w V W) (e1 e2 : List (Queue.Event W)), FExec c tr0 f0 ∧ pre = tr0 ++ e1.map .queue ∧
      Queue.TouchFirst f0.ch.queue (e1 ++ e :: e2) := by
  induction h generalizing post with
  | init => simp at htr
  | @step tr f f' act evs h hs ih =>
    rcases append_split htr with ⟨post', _, h1⟩ | ⟨e1, h1, rfl⟩
    · exact ih h1
    rcases fstep_cases hs with ⟨_, _, _, _, h2⟩ | ⟨qact, k, qevs, hq, h2, h3, _, h4⟩
    · rw [h1] at h2; simp [queueOf] at h2
    · have hk := queueCall_ok hq
      obtain ⟨es, hes⟩ := hk.api (f.ch.setQueue f'.queue.q) qevs
      rw [hes, h1] at h4
      rcases List.append_eq_append_iff.1 h4 with ⟨x, hx, hy⟩ | ⟨x, hx, hy⟩
      · cases x with
        | nil =>
          have : Ev.queue e ∈ es.map (Ev.api (V := V)) := by rw [List.nil_append] at hy; rw [← hy]; simp
          simp at this
        | cons y x =>
          simp only [List.cons_append, List.cons.injEq] at hy
          obtain ⟨rfl, -⟩ := hy
          obtain ⟨a, b, rfl, ha, hb⟩ := List.map_eq_append_iff.1 hx
          cases b with
          | nil => simp at hb
          | cons z b =>
            simp only [List.map_cons, List.cons.injEq, Ev.queue.injEq] at hb
            obtain ⟨rfl, -⟩ := hb
            exact ⟨tr, f, a, b, h, by rw [ha], Queue.fstep_touchFirst h2⟩
      · have : Ev.queue e ∈ es.map (Ev.api (V := V)) := by rw [hy]; simp
        simp at this

theorem quiet_map_queue {e1 : List (Queue.Event W)} (h : Queue.quiet e1 = []) (tr : Trace V W) : quiet (tr ++ e1.map .queue) = quiet tr := by
  have hq : quiet (e1.map (Ev.queue (V := V))) = [] := by
    simp only [Queue.quiet, quiet, List.filter_eq_nil_iff] at h ⊢
    intro e he
    obtain ⟨e', he', rfl⟩ := List.mem_map.1 he
    have := h e' he'
    cases e' <;> simp_all
  simp only [quiet, List.filter_append] at hq ⊢
  rw [hq, List.append_nil]

/-- The step of an access: what happened before, and what its thread is doing. -/
theorem FExec.at_touch (h : FExec c tr f) {pre post : Trace V W} {t : Queue.Tid} {n : Nat} (htr : tr = pre ++ .queue (.touch t n) :: post) :
    ∃ (tr0 : Trace V W) (f0 : FState w V W), FExec c tr0 f0 ∧ quiet tr0 = quiet pre ∧
      ∀ m, t = .node m → NodeNext.startPC (f0.ch.queue.pc (.node m)) = true ∨ NodeNext.remPC (f0.ch.queue.pc (.node m)) = true := by
  obtain ⟨tr0, f0, e1, e2, h0, rfl, h1⟩ := h.at_queue htr
  exact ⟨tr0, f0, h0, (quiet_map_queue (h1.split rfl).1 tr0).symm, (h1.split rfl).2⟩

/-- The step of a dequeue. -/
theorem FExec.at_deq (h : FExec c tr f) {pre post : Trace V W} {o n : Nat} (htr : tr = pre ++ .queue (.deq o n) :: post) :
    ∃ (tr0 : Trace V W) (f0 : FState w V W), FExec c tr0 f0 ∧ quiet tr0 = quiet pre := by
  obtain ⟨tr0, f0, e1, e2, h0, rfl, h1⟩ := h.at_queue htr
  exact ⟨tr0, f0, h0, (quiet_map_queue (h1.split_deq rfl) tr0).symm⟩

theorem FState.abs_node (f : FState w V W) (k : Nat) : f.abs.queue.pc (.node k) = f.ch.queue.pc (.node k) := by
  show f.queue.abs.pc (.node k) = _
  unfold Queue.FState.abs
  split
  · rename_i o t _
    have hne : (Queue.Tid.node k) ≠ .op o := by simp
    simp only [Queue.deqDone, Queue.State.goto, hne, if_false]
    rfl
  · rfl

/-- The call has returned, or has been cancelled. -/
theorem LifeOk.over {k : Nat} {p : SPC} {l : List (Api W)} (h : LifeOk k p l) (he : (∃ r, .retSend k r ∈ l) ∨ .cancelled k ∈ l) : p.over = true := by
  cases p <;> simp only [LifeOk] at h
  all_goals first
    | rfl
    | (obtain ⟨_, _, h⟩ := h; subst h; simp at he; done)
    | (subst h; simp at he; done)

/-- A call that is taken out of the wait queue has not ended, unless it timed out. -/
theorem FExec.deq_running (h : FExec c tr f) {pre post : Trace V W} {o k : Nat} (htr : tr = pre ++ .queue (.deq o k) :: post)
    (hto : .api (.retSend k .timeout) ∉ pre) : (∀ r, .api (.retSend k r) ∉ pre) ∧ .api (.cancelled k) ∉ pre := by
  obtain ⟨tr0, f0, h0, hq0⟩ := h.at_deq htr
  obtain ⟨tr', h1, hq1⟩ := h0.sim
  have hq : quiet tr' = quiet pre := hq1.trans hq0
  obtain ⟨tr2, h2, hq2⟩ := h.sim
  rw [htr] at hq2
  obtain ⟨pre2, post2, h3, h4, -⟩ := quiet_split (e := .queue (.deq o k)) rfl hq2
  have hk : k ∈ Queue.queueOf (queueOf pre2) := by
    obtain ⟨⟨q', hq'⟩, -⟩ := h2.queue.evOk (queueOf pre2) (.deq o k) (queueOf post2) (by rw [h3]; simp [queueOf])
    rw [hq']; simp
  rw [Queue.queueOf_congr (queueOf_congr h4), ← Queue.queueOf_congr (queueOf_congr hq)] at hk
  have hno : ¬ (f0.abs.snd k).over = true := by
    intro hover
    rcases h1.queued_call hk with h3 | h3 | h3 | h3
    · rw [h3] at hover; cases hover
    · rw [h3] at hover; cases hover
    · rw [h3] at hover; cases hover
    · exact hto ((mem_of_quiet hq rfl).1 h3)
  refine ⟨fun r he => hno ((h1.lives k).over (.inl ⟨r, ?_⟩)), fun he => hno ((h1.lives k).over (.inr ?_))⟩
  all_goals exact (mem_life (k := k) rfl).2 ((mem_of_quiet hq rfl).2 he)

/-- An access to the node of a call that has ended, and did not time out, is by an operation in the middle of dequeuing it. -/
theorem FExec.touch_ended (h : FExec c tr f) {pre post : Trace V W} {t : Queue.Tid} {k : Nat} (htr : tr = pre ++ .queue (.touch t k) :: post)
    (he : (∃ r, .api (.retSend k r) ∈ pre) ∨ .api (.cancelled k) ∈ pre) (hto : .api (.retSend k .timeout) ∉ pre) : ∃ o, t = .op o ∧ Queue.Dequeuing (queueOf pre) o k := by
  obtain ⟨tr0, f0, h0, hq0, hn⟩ := h.at_touch htr
  obtain ⟨tr', h1, hq1⟩ := h0.sim
  have hq : quiet tr' = quiet pre := hq1.trans hq0
  have hover : (f0.abs.snd k).over = true := by
    refine (h1.lives k).over ?_
    rcases he with ⟨r, he⟩ | he
    · exact .inl ⟨r, (mem_life (k := k) rfl).2 ((mem_of_quiet hq rfl).2 he)⟩
    · exact .inr ((mem_life (k := k) rfl).2 ((mem_of_quiet hq rfl).2 he))
  rcases h.queue.touchOk (pre := queueOf pre) (post := queueOf post) (t := t) (n := k) (by rw [htr]; simp [queueOf]) with ⟨hk, _⟩ | ⟨ht, _⟩ | h2
  · exfalso
    have hk' : k ∈ Queue.queueOf (queueOf tr') := by
      rw [Queue.queueOf_congr (queueOf_congr hq)]; exact hk
    rcases h1.queued_call hk' with h3 | h3 | h3 | h3
    · rw [h3] at hover; cases hover
    · rw [h3] at hover; cases hover
    · rw [h3] at hover; cases hover
    · exact hto ((mem_of_quiet hq rfl).1 h3)
  · exfalso
    have h3 := h1.nodesOk k
    rw [f0.abs_node] at h3
    have h4 := hn k ht
    generalize f0.abs.snd k = p at h3 hover
    cases p <;> simp [SPC.over] at hover <;> simp only [nodeOk] at h3 <;> rcases h4 with h4 | h4 <;> simp_all
  · exact h2

end Thingbuf.Chan
