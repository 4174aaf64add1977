import Verif.ByValueInv
/-
C72: `push`, `push_with`, `pop` and `pop_with`, called concurrently, with user code that may panic.

`coreOf tr`: the events of the queue (`Spec.lean`); `bodies a tr`: the runs of the closure of call `a`, each with the element it
found, the element it left, and what it returned (`none`: it panicked).
-/
namespace Thingbuf.ByVal

variable {w cap : Nat} {V U : Type} {tr pre post : List (Ev V U)} {s : State w V U} {a b : OpId} {r : Res V U}

theorem Exec.of_runActs {evs : List (Ev V U)} {s' : State w V U} {acts : List (Act V U)} (he : Exec w cap tr s)
    (h : runActs cap s acts = some (s', evs)) : Exec w cap (tr ++ evs) s' := by
  induction acts generalizing tr s evs with
  | nil => cases h; simpa using he
  | cons act acts ih =>
    rw [runActs] at h
    split at h
    · cases h
    · rename_i s1 e1 h1
      split at h
      · cases h
      · rename_i s2 e2 h2
        cases h
        rw [← List.append_assoc]
        exact ih (.step he h1) h2

/-- A concrete schedule gives a run. -/
theorem Run.of_acts (hw : WellSized w cap) (acts : List (Act V U)) (tr : List (Ev V U))
    (h : (runActs cap (State.init w V U) acts).map Prod.snd = some tr)
    (hn : nRes (coreOf tr) + 2 * cap < period w cap) : ∃ s, Run w cap tr s := by
  obtain ⟨⟨s, t⟩, h1, rfl⟩ := Option.map_eq_some_iff.1 h
  exact ⟨s, hw, by simpa using Exec.init.of_runActs h1, NoStall.of_few hn⟩

/-- A concrete case.  Capacity 2: `push(10)` (0) and `push_with` (1) race; 1's closure leaves 11 and panics; the `Drop` of the element
that 0 overwrites panics; `push(12)` (2) is told the queue is full; `pop` (3) and `pop_with` (4) race; `push_with` (5) succeeds in the
next lap; its element was recycled. -/
def demoActs : List (Act Nat Nat) :=
  [.call 0 (.push 10), .call 1 .pushWith, .run 0, .run 1, .run 0, .run 1, .run 0, .run 1, .run 1, .run 1, .elem 1 0, .elem 0 0,
   .closure 1 11 none, .finish 1, .assign 0 true, .finish 0,
   .call 2 (.push 12), .run 2, .run 2, .run 2,
   .call 3 .pop, .call 4 .popWith, .run 3, .run 3, .run 3, .run 4, .run 4, .run 4, .closure 4 99 (some 7), .finish 4,
   .take 3 (some 0), .finish 3, .call 5 .pushWith, .run 5, .run 5, .run 5, .elem 5 0, .closure 5 13 (some 8), .finish 5]

def demoTrace : List (Ev Nat Nat) :=
  ((runActs 2 (State.init 8 Nat Nat) demoActs).map Prod.snd).getD []

theorem demo_run : ∃ s, Run 8 2 demoTrace s :=
  Run.of_acts (by decide) demoActs demoTrace (by decide +kernel) (by decide +kernel)

theorem Run.good (h : Run w cap tr s) (htr : tr = pre ++ .ret a r :: post) {c : Call V} (hc : .call a c ∈ tr) :
    Good (coreOf pre) (bodies a pre) a c r := by
  obtain ⟨c', h1, h2⟩ := h.inv.rets pre a r post htr
  have := h.inv.uniq a c c' hc (by rw [htr]; exact List.mem_append_left _ h1)
  rwa [this]

/-- **C72** The calls use the queue as its own calls `push_ref` and `pop_ref` do: what C01 to C16 say of the queue holds. -/
theorem C72_queue (h : Run w cap tr s) : Thingbuf.Run w cap (coreOf tr) s.core := h.core

/-- Beside C72_queue: the concrete case, with what its calls returned. -/
example : ∃ s, Run 8 2 demoTrace s ∧ demoTrace.filterMap (fun | .ret a r => some (a, r) | _ => none) =
    [(1, .panicked), (0, .panicked), (2, .full 12), (4, .returned 7), (3, .value (some 10)), (5, .returned 8)] := by
  obtain ⟨s, h⟩ := demo_run
  exact ⟨s, h, by decide +kernel⟩

/-- **C72** `push(v)` returns `Ok` after `v` was enqueued, or gives exactly `v` back in `Full` and has enqueued nothing; if it panics
then either `v` was enqueued all the same (the `Drop` of the element that was overwritten panicked), or `new_element` or `recycle`
panicked in `push_ref`.  There is no other end. -/
theorem C72_push (h : Run w cap tr s) {v : V} (hc : .call a (.push v) ∈ tr) (htr : tr = pre ++ .ret a r :: post) :
    (r = .ok ∧ ∃ i, .commit a i (some v) ∈ coreOf pre) ∨
    (r = .full v ∧ .ret a .full ∈ coreOf pre ∧ a ∉ resOps (coreOf pre)) ∨
    (r = .panicked ∧ ((∃ i, .commit a i (some v) ∈ coreOf pre) ∨ .ret a .panicked ∈ coreOf pre)) := by
  have hg := h.good htr hc
  cases r with
  | ok => exact .inl ⟨rfl, hg⟩
  | full v' => obtain ⟨rfl, h1⟩ := hg; exact .inr (.inl ⟨rfl, h1⟩)
  | panicked => exact .inr (.inr ⟨rfl, hg⟩)
  | _ => exact hg.elim

/-- Beside C72_push: calls 0 (panicked, enqueued) and 2 (full). -/
example : ∃ s, Run 8 2 demoTrace s ∧ .call 0 (.push 10) ∈ demoTrace ∧ .ret 0 .panicked ∈ demoTrace ∧
    .core (.commit 0 0 (some 10)) ∈ demoTrace ∧ .call 2 (.push 12) ∈ demoTrace ∧ .ret 2 (.full 12) ∈ demoTrace := by
  obtain ⟨s, h⟩ := demo_run
  exact ⟨s, h, by decide +kernel⟩

/-- **C72** `push_with(f)` runs `f` exactly once, on an initialised element, and returns what `f` returned, after the element was enqueued as
`f` has left it; or it returns `Full` and has neither run `f` nor enqueued anything.  If `f` panics the element is enqueued all the
same, as `f` has left it. -/
theorem C72_push_with (h : Run w cap tr s) (hc : .call a .pushWith ∈ tr) (htr : tr = pre ++ .ret a r :: post) :
    (∃ old new i u, r = .returned u ∧ bodies a pre = [(some old, new, some u)] ∧ .commit a i (some new) ∈ coreOf pre) ∨
    (r = .fullUnit ∧ bodies a pre = [] ∧ .ret a .full ∈ coreOf pre ∧ a ∉ resOps (coreOf pre)) ∨
    (r = .panicked ∧ ((∃ old new i, bodies a pre = [(some old, new, none)] ∧ .commit a i (some new) ∈ coreOf pre) ∨
      (bodies a pre = [] ∧ .ret a .panicked ∈ coreOf pre))) := by
  have hg := h.good htr hc
  cases r with
  | returned u => obtain ⟨o, n, i, h1, h2⟩ := hg; exact .inl ⟨o, n, i, u, rfl, h1, h2⟩
  | fullUnit => exact .inr (.inl ⟨rfl, hg⟩)
  | panicked => exact .inr (.inr ⟨rfl, hg⟩)
  | _ => exact hg.elim

/-- Beside C72_push_with: calls 1 (the closure panicked, 11 enqueued) and 5. -/
example : ∃ s, Run 8 2 demoTrace s ∧ .call 1 .pushWith ∈ demoTrace ∧ .ret 1 .panicked ∈ demoTrace ∧
    .core (.commit 1 1 (some 11)) ∈ demoTrace ∧ .call 5 .pushWith ∈ demoTrace ∧ .ret 5 (.returned 8) ∈ demoTrace := by
  obtain ⟨s, h⟩ := demo_run
  exact ⟨s, h, by decide +kernel⟩

/-- **C72** `pop()` returns the element it has dequeued; it has put another one into its place, and the place is free again, with that one in it; or it
returns `None`, and has dequeued nothing.  If it panics
(`new_element` panicked), the element it has dequeued is left in the slot, where only `recycle` of a later push will see it. -/
theorem C72_pop (h : Run w cap tr s) (hc : .call a .pop ∈ tr) (htr : tr = pre ++ .ret a r :: post) :
    (∃ x i j l v, r = .value (some x) ∧ .dequeue a i (some x) ∈ coreOf pre ∧ .access a j (.write v) ∈ coreOf pre ∧
      .release a l (some v) ∈ coreOf pre) ∨
    (r = .none ∧ .ret a .empty ∈ coreOf pre ∧ a ∉ deqOps (coreOf pre)) ∨
    (r = .panicked ∧ ∃ x i j, .dequeue a i (some x) ∈ coreOf pre ∧ .release a j (some x) ∈ coreOf pre) := by
  have hg := h.good htr hc
  cases r with
  | value x => obtain ⟨y, rfl, ⟨i, h1⟩, l, j, v, h2, h3⟩ := hg; exact .inl ⟨y, i, j, l, v, rfl, h1, h2, h3⟩
  | none => exact .inr (.inl ⟨rfl, hg⟩)
  | panicked => obtain ⟨x, j, ⟨i, h1⟩, h2⟩ := hg; exact .inr (.inr ⟨rfl, x, i, j, h1, h2⟩)
  | _ => exact hg.elim

/-- Beside C72_pop: call 3. -/
example : ∃ s, Run 8 2 demoTrace s ∧ .call 3 .pop ∈ demoTrace ∧ .ret 3 (.value (some 10)) ∈ demoTrace := by
  obtain ⟨s, h⟩ := demo_run
  exact ⟨s, h, by decide +kernel⟩

/-- **C72** A panic of `new_element` in `pop()` loses an element: `push(10)` has returned `Ok`, the only call to remove anything panicked, and
the next `pop()` returns `None`. -/
theorem C72_pop_panic_loses : ∃ (tr : List (Ev Nat Nat)) (s : State 8 Nat Nat), Run 8 2 tr s ∧
    tr.filterMap (fun | .call a c => some (a, c) | _ => none) = [(0, .push 10), (1, .pop), (2, .pop)] ∧
    tr.filterMap (fun | .ret a r => some (a, r) | _ => none) = [(0, .ok), (1, .panicked), (2, .none)] := by
  obtain ⟨s, h⟩ := Run.of_acts (w := 8) (cap := 2) (V := Nat) (U := Nat) (by decide)
    [.call 0 (.push 10), .run 0, .run 0, .run 0, .elem 0 0, .assign 0 false, .finish 0,
     .call 1 .pop, .run 1, .run 1, .run 1, .take 1 none, .finish 1, .call 2 .pop, .run 2, .run 2, .run 2]
    [.call 0 (.push 10), .core (.invoke 0 .push), .core (.reserve 0 0), .core (.access 0 0 (.create 0)), .core (.ret 0 .pushed),
     .core (.access 0 0 (.write 10)), .core (.commit 0 0 (some 10)), .ret 0 .ok,
     .call 1 .pop, .core (.invoke 1 .pop), .core (.dequeue 1 0 (some 10)), .core (.ret 1 .popped), .panic 1, .core (.release 1 0 (some 10)),
     .ret 1 .panicked, .call 2 .pop, .core (.invoke 2 .pop), .core (.ret 2 .empty), .ret 2 .none]
    (by decide +kernel) (by decide +kernel)
  exact ⟨_, s, h, by decide +kernel, by decide +kernel⟩

/-- **C72** `pop_with(f)` runs `f` exactly once, on the element it has dequeued, and returns what `f` returned; or it returns `None` and has neither
run `f` nor dequeued anything.  In every case, also if `f` panics, the place of the element is free again. -/
theorem C72_pop_with (h : Run w cap tr s) (hc : .call a .popWith ∈ tr) (htr : tr = pre ++ .ret a r :: post) :
    (∃ old new i j u, r = endWith u ∧ bodies a pre = [(some old, new, u)] ∧ .dequeue a i (some old) ∈ coreOf pre ∧
      .release a j (some new) ∈ coreOf pre) ∨
    (r = .none ∧ bodies a pre = [] ∧ .ret a .empty ∈ coreOf pre ∧ a ∉ deqOps (coreOf pre)) := by
  have hg := h.good htr hc
  cases r with
  | returned u => obtain ⟨o, n, j, h1, ⟨i, h2⟩, h3⟩ := hg; exact .inl ⟨o, n, i, j, some u, rfl, h1, h2, h3⟩
  | none => exact .inr ⟨rfl, hg⟩
  | panicked => obtain ⟨o, n, j, h1, ⟨i, h2⟩, h3⟩ := hg; exact .inl ⟨o, n, i, j, none, rfl, h1, h2, h3⟩
  | _ => exact hg.elim

/-- Beside C72_pop_with: call 4. -/
example : ∃ s, Run 8 2 demoTrace s ∧ .call 4 .popWith ∈ demoTrace ∧ .ret 4 (.returned 7) ∈ demoTrace ∧
    bodies 4 demoTrace = [(some 11, 99, some 7)] := by
  obtain ⟨s, h⟩ := demo_run
  exact ⟨s, h, by decide +kernel⟩

/-- **C72** A closure runs at most once, over the whole execution. -/
theorem C72_once (h : Run w cap tr s) (a : OpId) : (bodies a tr).length ≤ 1 := h.inv.one a

/-- Beside C72_once: closures run. -/
example : ∃ s, Run 8 2 demoTrace s ∧ bodies 1 demoTrace = [(some 0, 11, none)] ∧ bodies 5 demoTrace = [(some 0, 13, some 8)] := by
  obtain ⟨s, h⟩ := demo_run
  exact ⟨s, h, by decide +kernel⟩

/-- **C72** A call ends by a panic if user code it has called has panicked, and only then; it never panics by itself. -/
theorem C72_panic_iff (h : Run w cap tr s) (htr : tr = pre ++ .ret a r :: post) :
    (r = .panicked ↔ UserPanic pre a) ∧ r ≠ .bug := by
  refine ⟨h.pinv.rets pre a r post htr, ?_⟩
  rintro rfl
  obtain ⟨c, -, hg⟩ := h.inv.rets pre a _ post htr
  cases c <;> exact hg

/-- Beside C72_panic_iff: user code panics in calls 0 and 1, not in calls 3 and 4. -/
example : ∃ s, Run 8 2 demoTrace s ∧ UserPanic demoTrace 0 ∧ UserPanic demoTrace 1 ∧ ¬ UserPanic demoTrace 3 ∧ .ret 3 (.value (some 10)) ∈ demoTrace := by
  obtain ⟨s, h⟩ := demo_run
  have hb : bodies 3 demoTrace = [] := by decide +kernel
  refine ⟨s, h, .inr (.inl (by decide +kernel)), .inr (.inr ⟨some 0, 11, by decide +kernel⟩), ?_, by decide +kernel⟩
  rintro (h1 | h1 | ⟨o, n, h1⟩)
  · exact absurd h1 (by decide +kernel)
  · exact absurd h1 (by decide +kernel)
  · have : (o, n, none) ∈ bodies 3 demoTrace := List.mem_filterMap.2 ⟨_, h1, by simp⟩
    rw [hb] at this; cases this

/-- **C72** A call that has ended, normally or by a panic, holds no place any more; except if `new_element` or `recycle` panicked in
`push_ref`. -/
theorem C72_no_place_kept (h : Run w cap tr s) (htr : tr = pre ++ .ret a r :: post) (hp : .ret a .panicked ∉ coreOf tr) (i : Nat) :
    ¬ Holds (coreOf tr) a i := by
  obtain ⟨c, h1, hg⟩ := h.inv.rets pre a r post htr
  have hsub : ∀ e, e ∈ coreOf pre → e ∈ coreOf tr := fun e he => by rw [htr, coreOf_append]; exact List.mem_append_left _ he
  have hf := h.core.facts
  rintro ⟨h2, h3, h4⟩
  have hfull : .ret a .full ∈ coreOf pre → False := by
    intro h5
    rcases h2 with h2 | ⟨v, h2⟩
    · rcases (hf.ret_reserved (hsub _ h5)).1 (mem_resOps.2 ⟨i, h2⟩) with h | h <;> cases h
    · obtain ⟨x, y, hxy⟩ := mem_split h2
      have h6 := (hf.evOk hxy).1.inv
      have h6 : Event.invoke a .pop ∈ coreOf tr := by rw [hxy]; simp [h6]
      rcases hf.pop_ret (hsub _ h5) h6 with h | h | h <;> cases h
  have hempty : .ret a .empty ∈ coreOf pre → False := by
    intro h5
    rcases h2 with h2 | ⟨v, h2⟩
    · rcases (hf.ret_reserved (hsub _ h5)).1 (mem_resOps.2 ⟨i, h2⟩) with h | h <;> cases h
    · exact empty_not_deq hf (hsub _ h5) (mem_deqOps.2 ⟨i, v, h2⟩)
  have hcom : ∀ j x, .commit a j x ∈ coreOf pre → False := fun j x h5 => h3 ⟨j, x, hsub _ h5⟩
  have hrel : ∀ j x, .release a j x ∈ coreOf pre → False := fun j x h5 => h4 ⟨j, x, hsub _ h5⟩
  cases c with
  | push v => cases r with
    | ok => obtain ⟨j, h5⟩ := hg; exact hcom _ _ h5
    | full v' => exact hfull hg.2.1
    | panicked => exact hg.elim (fun ⟨_, h5⟩ => hcom _ _ h5) (fun h5 => hp (hsub _ h5))
    | _ => exact hg
  | pushWith => cases r with
    | returned u => obtain ⟨o, n, j, -, h5⟩ := hg; exact hcom _ _ h5
    | fullUnit => exact hfull hg.2.1
    | panicked => exact hg.elim (fun ⟨_, _, _, _, h5⟩ => hcom _ _ h5) (fun h5 => hp (hsub _ h5.2))
    | _ => exact hg
  | pop => cases r with
    | value x => obtain ⟨-, -, -, j, -, v, -, h5⟩ := hg; exact hrel _ _ h5
    | none => exact hempty hg.1
    | panicked => obtain ⟨x, j, -, h5⟩ := hg; exact hrel _ _ h5
    | _ => exact hg
  | popWith => cases r with
    | returned u => obtain ⟨o, n, j, -, -, h5⟩ := hg; exact hrel _ _ h5
    | none => exact hempty hg.2.1
    | panicked => obtain ⟨o, n, j, -, -, h5⟩ := hg; exact hrel _ _ h5
    | _ => exact hg

/-- Beside C72_no_place_kept: call 1, which ended by a panic of its closure. -/
example : ∃ s, Run 8 2 demoTrace s ∧ .ret 1 .panicked ∈ demoTrace ∧ .ret 1 .panicked ∉ coreOf demoTrace := by
  obtain ⟨s, h⟩ := demo_run
  exact ⟨s, h, by decide +kernel⟩

/-- Call `a` has put `v` into the queue: it is `push(v)`, or `push_with(f)` and `f` has left `v`. -/
def Put (tr : List (Ev V U)) (a : OpId) (v : V) : Prop :=
  .call a (.push v) ∈ tr ∨ (.call a .pushWith ∈ tr ∧ ∃ o u, .body a o v u ∈ tr)

/-- Call `b` got `x` out of the queue: it is `pop` and has returned `Some(x)`, or `pop_with(f)`, it has ended, and `f` has found `x`. -/
def Got (tr : List (Ev V U)) (b : OpId) (x : V) : Prop :=
  (.call b .pop ∈ tr ∧ .ret b (.value (some x)) ∈ tr) ∨
  (.call b .popWith ∈ tr ∧ ∃ pre r post n u, tr = pre ++ .ret b r :: post ∧ .body b (some x) n u ∈ pre)

theorem Run.got (h : Run w cap tr s) {x : V} (hg : Got tr b x) : ∃ i, .dequeue b i (some x) ∈ coreOf tr := by
  rcases hg with ⟨h1, h2⟩ | ⟨h1, p, r, q, n, u, hpq, h3⟩
  · obtain ⟨p, q, hpq⟩ := List.append_of_mem h2
    obtain ⟨y, h4, ⟨i, h5⟩, -⟩ := h.good hpq h1
    cases h4
    exact ⟨i, by rw [hpq, coreOf_append]; exact List.mem_append_left _ h5⟩
  · have hm : (some x, n, u) ∈ bodies b p := List.mem_filterMap.2 ⟨_, h3, by simp⟩
    rcases C72_pop_with h h1 hpq with ⟨o, n', i, j, u', -, h6, h7, -⟩ | ⟨-, h6, -, h7⟩
    · rw [h6] at hm
      have := List.mem_singleton.1 hm
      cases this
      exact ⟨i, by rw [hpq, coreOf_append]; exact List.mem_append_left _ h7⟩
    · rw [h6] at hm; cases hm

/-- **C72** First in, first out: what the `j`-th pop got is what the `j`-th push has put into the queue. -/
theorem C72_fifo (h : Run w cap tr s) {j : Nat} {v x : V} (ha : (resOps (coreOf tr))[j]? = some a)
    (hb : (deqOps (coreOf tr))[j]? = some b) (hp : Put tr a v) (hg : Got tr b x) : x = v := by
  obtain ⟨i, hd⟩ := h.got hg
  obtain ⟨p, q, hpq⟩ := mem_split hd
  obtain ⟨a', h1, h2⟩ := h.core.facts.fifo_once.2.2.2.2 p b i (some x) q hpq
  have hj : nDeq p = j := by
    have h3 : (deqOps (coreOf tr))[nDeq p]? = some b := by rw [hpq]; exact deqOps_at
    have := (List.getElem?_inj (List.getElem?_eq_some_iff.1 h3).1 h.core.nodup_deq).1 (h3.trans hb.symm)
    exact this
  have haa : a' = a := by
    have h3 : (resOps (coreOf tr))[j]? = some a' := by
      rw [hpq, resOps_append, ← hj]
      rw [List.getElem?_append_left (List.getElem?_eq_some_iff.1 h1).1, h1]
    rw [ha] at h3
    exact (Option.some.inj h3).symm
  subst haa
  have h3 : Event.commit a' i (some x) ∈ coreOf tr := by rw [hpq]; exact List.mem_append_left _ h2
  obtain ⟨h4, h5⟩ := h.inv.com a' i (some x) h3
  rcases hp with hp | ⟨hp, o, u, hp'⟩
  · exact Option.some.inj (h4 v hp)
  · exact Option.some.inj (h5 o v u hp hp')

/-- Beside C72_fifo: `push_with` (1) was the second push, `pop_with` (4) the second pop. -/
example : ∃ s, Run 8 2 demoTrace s ∧ (resOps (coreOf demoTrace))[1]? = some 1 ∧ (deqOps (coreOf demoTrace))[1]? = some 4 ∧
    Put demoTrace 1 11 ∧ Got demoTrace 4 11 := by
  obtain ⟨s, h⟩ := demo_run
  refine ⟨s, h, by decide +kernel, by decide +kernel, .inr ⟨by decide +kernel, some 0, none, by decide +kernel⟩,
    .inr ⟨by decide +kernel, demoTrace.take 35, .returned 7, demoTrace.drop 36, 99, some 7, by decide +kernel, by decide +kernel⟩⟩

end Thingbuf.ByVal
