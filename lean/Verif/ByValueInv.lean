import Verif.ByValue
import Verif.ChanTry
namespace Thingbuf.ByVal

variable {w cap : Nat} {V U : Type} {tr evs : List (Ev V U)} {s s' : State w V U} {a b : OpId}

@[simp] theorem coreOf_append (t u : List (Ev V U)) : coreOf (t ++ u) = coreOf t ++ coreOf u := by simp [coreOf]
@[simp] theorem coreOf_map (l : List (Event V)) : coreOf (l.map (Ev.core (U := U))) = l := by
  induction l with
  | nil => rfl
  | cons e l ih => simpa [coreOf] using ih
@[simp] theorem bodies_append (t u : List (Ev V U)) : bodies a (t ++ u) = bodies a t ++ bodies a u := by simp [bodies]
@[simp] theorem bodies_map (l : List (Event V)) : bodies a (l.map (Ev.core (U := U))) = [] := by
  induction l with
  | nil => rfl
  | cons e l ih => simpa [bodies] using ih

/-- The operation of an action. -/
def actOp : Thingbuf.Act V → OpId
  | .invoke a _ | .run a | .spurious a | .elem a _ | .elemPanic a _ | .read a | .write a _ | .dropRef a => a

theorem step_shape {s s' : Thingbuf.State w V} {act : Thingbuf.Act V} {evs : List (Event V)}
    (h : Thingbuf.step cap s act = some (s', evs)) :
    (∀ e ∈ evs, e.actor = actOp act) ∧
    (.ret (actOp act) .popped ∈ evs → ∃ i v, evs = [.dequeue (actOp act) i v, .ret (actOp act) .popped]) ∧
    (∀ b op, .invoke b op ∈ evs → act = .invoke b op) ∧ (∀ b i x, .commit b i x ∈ evs → act = .dropRef b) := by
  cases act with
  | invoke a op =>
    simp only [Thingbuf.step] at h
    split at h
    · cases h; simp [Event.actor, actOp]
    · cases h
  | run a =>
    simp only [Thingbuf.step, runStep] at h
    split at h
    all_goals first
      | (cases h; done)
      | (cases h; simp [Event.actor, actOp]; done)
      | (simp only [Option.some.injEq] at h
         simp only [pushLoop, pushCas, pushHead, popLoop, popCas, popTail, closeStep] at h
         repeat' split at h
         all_goals (cases h; simp [Event.actor, actOp]))
      | (split at h <;> (cases h; simp [Event.actor, actOp]))
  | spurious a =>
    simp only [Thingbuf.step] at h
    split at h
    all_goals first
      | cases h; done
      | (simp only [Option.some.injEq, pushCas, popCas] at h
         repeat' split at h
         all_goals (cases h; simp [Event.actor, actOp]))
  | elem a v =>
    simp only [Thingbuf.step] at h
    split at h
    · simp only [Option.some.injEq, pushElem] at h
      repeat' split at h
      all_goals (cases h; simp [Event.actor, actOp])
    · cases h
  | elemPanic a v =>
    simp only [Thingbuf.step] at h
    split at h
    · simp only [Option.some.injEq, pushElemPanic] at h
      repeat' split at h
      all_goals (cases h; simp [Event.actor, actOp])
    · cases h
  | read a =>
    simp only [Thingbuf.step] at h
    split at h
    all_goals first | cases h; done | (cases h; simp [Event.actor, actOp])
  | write a v =>
    simp only [Thingbuf.step] at h
    split at h
    all_goals first | cases h; done | (cases h; simp [Event.actor, actOp])
  | dropRef a =>
    simp only [Thingbuf.step] at h
    split at h
    · cases h; simp [Event.actor, actOp]; intro b _ _ h _ _; exact h.symm
    · cases h; simp [Event.actor, actOp]
    · cases h

theorem retOf_some {evs : List (Event V)} {r : Ret} (h : retOf evs = some r) (ha : ∀ e ∈ evs, e.actor = a) :
    .ret a r ∈ evs := by
  unfold retOf at h
  obtain ⟨e, he, h1⟩ := List.exists_of_findSome?_eq_some h
  cases e with
  | ret b r' => cases h1; have := ha _ he; cases this; exact he
  | _ => simp at h1

theorem retOf_none {evs : List (Event V)} (h : retOf evs = none) {r : Ret} : .ret a r ∉ evs := by
  unfold retOf at h
  rw [List.findSome?_eq_none_iff] at h
  intro hm
  have := h _ hm
  simp at this

theorem step_read {s s' : Thingbuf.State w V} {evs : List (Event V)} (h : Thingbuf.step cap s (.read a) = some (s', evs)) :
    s' = s ∧ ∃ i x, evs = [.access a i (.read x)] := by
  simp only [Thingbuf.step] at h
  split at h
  all_goals first | cases h; done | (cases h; exact ⟨rfl, _, _, rfl⟩)

theorem step_write {s s' : Thingbuf.State w V} {v : V} {evs : List (Event V)}
    (h : Thingbuf.step cap s (.write a v) = some (s', evs)) : ∃ i, evs = [.access a i (.write v)] := by
  simp only [Thingbuf.step] at h
  split at h
  all_goals first | cases h; done | (cases h; exact ⟨_, rfl⟩)

theorem step_drop {s s' : Thingbuf.State w V} {evs : List (Event V)}
    (h : Thingbuf.step cap s (.dropRef a) = some (s', evs)) :
    ∃ i x, evs = [.commit a i x] ∨ evs = [.release a i x] := by
  simp only [Thingbuf.step] at h
  split at h
  · cases h; exact ⟨_, _, .inl rfl⟩
  · cases h; exact ⟨_, _, .inr rfl⟩
  · cases h

theorem step_invoke {s s' : Thingbuf.State w V} {op : Op} {evs : List (Event V)}
    (h : Thingbuf.step cap s (.invoke a op) = some (s', evs)) : evs = [.invoke a op] := by
  simp only [Thingbuf.step] at h
  split at h
  · cases h; rfl
  · cases h

theorem onCore_eq {act : Thingbuf.Act V} {r : State w V U × List (Event V)} (h : onCore cap s act = some r) :
    ∃ c', Thingbuf.step cap s.core act = some (c', r.2) ∧ r.1 = { s with core := c' } := by
  unfold onCore at h
  obtain ⟨⟨c', e⟩, h1, rfl⟩ := Option.map_eq_some_iff.1 h
  exact ⟨c', h1, rfl⟩

/-- One step of the machine. -/
inductive Move (cap : Nat) (s : State w V U) : State w V U → List (Ev V U) → Prop
  | call (a : OpId) (c : Call V) (k : Thingbuf.State w V) (h : s.pc a = .idle) (hk : Thingbuf.step cap s.core (.invoke a c.op) = some (k, [.invoke a c.op])) :
      Move cap s ⟨k, upd s.pc a (.ref c)⟩ [.call a c, .core (.invoke a c.op)]
  | stay (a : OpId) (c : Call V) (act : Thingbuf.Act V) (k : Thingbuf.State w V) (evs : List (Event V)) (h : s.pc a = .ref c) (hk : Thingbuf.step cap s.core act = some (k, evs))
      (ha : ∀ e ∈ evs, e.actor = a) (hr : ∀ r, .ret a r ∉ evs) (hc : ∀ b p, .invoke b (.close p) ∉ evs) (hm : ∀ b i x, .commit b i x ∉ evs) :
      Move cap s ⟨k, s.pc⟩ (evs.map .core)
  | hold (a : OpId) (c : Call V) (act : Thingbuf.Act V) (k : Thingbuf.State w V) (evs : List (Event V)) (r : Ret) (h : s.pc a = .ref c) (hk : Thingbuf.step cap s.core act = some (k, evs))
      (ha : ∀ e ∈ evs, e.actor = a) (hr : .ret a r ∈ evs) (hc : ∀ b p, .invoke b (.close p) ∉ evs) (hm : ∀ b i x, .commit b i x ∉ evs) (hf : afterRef (U := U) c r = none)
      (hp : .ret a .popped ∈ evs → ∃ i v, evs = [.dequeue a i v, .ret a .popped]) :
      Move cap s ⟨k, upd s.pc a (.hold c)⟩ (evs.map .core)
  | over (a : OpId) (c : Call V) (act : Thingbuf.Act V) (k : Thingbuf.State w V) (evs : List (Event V)) (r : Ret) (y : Res V U) (h : s.pc a = .ref c) (hk : Thingbuf.step cap s.core act = some (k, evs))
      (ha : ∀ e ∈ evs, e.actor = a) (hr : .ret a r ∈ evs) (hc : ∀ b p, .invoke b (.close p) ∉ evs) (hm : ∀ b i x, .commit b i x ∉ evs) (hf : afterRef c r = some y) :
      Move cap s ⟨k, upd s.pc a .done⟩ (evs.map .core ++ [.ret a y])
  | assign (a : OpId) (v : V) (i : Nat) (p : Bool) (k : Thingbuf.State w V) (h : s.pc a = .hold (.push v))
      (hk : Thingbuf.step cap s.core (.write a v) = some (k, [.access a i (.write v)])) :
      Move cap s ⟨k, upd s.pc a (.drop (if p then .panicked else .ok))⟩
        ([.core (.access a i (.write v))] ++ if p then [.panic a] else [])
  | takePanic (a : OpId) (h : s.pc a = .hold .pop) : Move cap s ⟨s.core, upd s.pc a (.drop .panicked)⟩ [.panic a]
  | take (a : OpId) (v : V) (i j : Nat) (x : Option V) (k : Thingbuf.State w V) (h : s.pc a = .hold .pop)
      (hk : Thingbuf.step cap s.core (.read a) = some (s.core, [.access a i (.read x)]))
      (hk' : Thingbuf.step cap s.core (.write a v) = some (k, [.access a j (.write v)])) :
      Move cap s ⟨k, upd s.pc a (.drop (.value x))⟩ [.core (.access a i (.read x)), .core (.access a j (.write v))]
  | closure (a : OpId) (c : Call V) (v : V) (i j : Nat) (x : Option V) (u : Option U) (k : Thingbuf.State w V) (h : s.pc a = .hold c) (hc : c = .pushWith ∨ c = .popWith)
      (hk : Thingbuf.step cap s.core (.read a) = some (s.core, [.access a i (.read x)]))
      (hk' : Thingbuf.step cap s.core (.write a v) = some (k, [.access a j (.write v)])) :
      Move cap s ⟨k, upd s.pc a (.drop (endWith u))⟩
        [.core (.access a i (.read x)), .core (.access a j (.write v)), .body a x v u]
  | finish (a : OpId) (r : Res V U) (e : Event V) (i : Nat) (x : Option V) (k : Thingbuf.State w V) (h : s.pc a = .drop r) (he : e = .commit a i x ∨ e = .release a i x)
      (hk : Thingbuf.step cap s.core (.dropRef a) = some (k, [e])) :
      Move cap s ⟨k, upd s.pc a .done⟩ [.core e, .ret a r]

theorem inRef_move {act : Thingbuf.Act V} (ho : actOp act = a) (hn : ∀ b op, act ≠ .invoke b op) (hd : ∀ b, act ≠ .dropRef b) (h : inRef cap s a act = some (s', evs)) :
    Move cap s s' evs := by
  unfold inRef at h
  split at h
  · rename_i c hpc
    obtain ⟨r, h1, h2⟩ := Option.map_eq_some_iff.1 h
    obtain ⟨k, h3, h4⟩ := onCore_eq h1
    have h5 := step_shape h3
    rw [ho] at h5
    have hc : ∀ b p, Event.invoke b (.close p) ∉ r.2 := fun b p hb => hn _ _ (h5.2.2.1 _ _ hb)
    have hm : ∀ b i x, Event.commit b i x ∉ r.2 := fun b i x hb => hd _ (h5.2.2.2 _ _ _ hb)
    split at h2
    · rename_i h6
      cases h2
      rw [h4]
      exact .stay a c act k _ hpc h3 h5.1 (fun _ => retOf_none h6) hc hm
    · rename_i x h6
      have h7 := retOf_some h6 h5.1
      split at h2
      · rename_i h8
        cases h2
        rw [h4]
        exact .hold a c act k _ x hpc h3 h5.1 h7 hc hm h8 h5.2.1
      · rename_i y h8
        cases h2
        rw [h4]
        exact .over a c act k _ x y hpc h3 h5.1 h7 hc hm h8
  · cases h

theorem step_move {act : Act V U} (h : step cap s act = some (s', evs)) : Move cap s s' evs := by
  cases act with
  | call a c =>
    simp only [step] at h
    split at h
    · rename_i hpc
      obtain ⟨r, h1, h2⟩ := Option.map_eq_some_iff.1 h
      obtain ⟨k, h3, h4⟩ := onCore_eq h1
      have h5 := step_invoke h3
      cases h2
      rw [h5] at h3 ⊢
      rw [h4]
      exact .call a c k hpc h3
    · cases h
  | run a => exact inRef_move (act := .run a) rfl (by simp) (by simp) h
  | spurious a => exact inRef_move (act := .spurious a) rfl (by simp) (by simp) h
  | elem a v => exact inRef_move (act := .elem a v) rfl (by simp) (by simp) h
  | elemPanic a v => exact inRef_move (act := .elemPanic a v) rfl (by simp) (by simp) h
  | assign a p =>
    simp only [step] at h
    split at h
    · rename_i v hpc
      obtain ⟨r, h1, h2⟩ := Option.map_eq_some_iff.1 h
      obtain ⟨k, h3, h4⟩ := onCore_eq h1
      obtain ⟨i, h5⟩ := step_write h3
      cases h2
      rw [h5] at h3 ⊢
      rw [h4]
      exact .assign a v i p k hpc h3
    · cases h
  | take a f =>
    simp only [step] at h
    split at h
    · rename_i hpc
      cases h
      exact .takePanic a hpc
    · rename_i v hpc
      obtain ⟨r, h1, h2⟩ := Option.bind_eq_some_iff.1 h
      obtain ⟨r', h1', h2⟩ := Option.map_eq_some_iff.1 h2
      obtain ⟨k, h3, h4⟩ := onCore_eq h1
      obtain ⟨rfl, i, x, h5⟩ := step_read h3
      obtain ⟨k', h3', h4'⟩ := onCore_eq h1'
      obtain ⟨j, h5'⟩ := step_write h3'
      cases h2
      rw [h4] at h3' h4'
      rw [h5] at h3 ⊢
      rw [h5'] at h3' ⊢
      rw [h4']
      exact .take a v i j x k' hpc h3 h3'
    · cases h
  | closure a v u =>
    have key : ∀ c, s.pc a = .hold c → (c = .pushWith ∨ c = .popWith) →
        ((onCore cap s (.read a)).bind fun r => (onCore cap r.1 (.write a v)).map fun r' =>
          (r'.1.goto a (.drop (endWith u)),
           (r.2 ++ r'.2).map .core ++ [.body a (readOf r.2) v u])) = some (s', evs) → Move cap s s' evs := by
      intro c hpc hc h
      obtain ⟨r, h1, h2⟩ := Option.bind_eq_some_iff.1 h
      obtain ⟨r', h1', h2⟩ := Option.map_eq_some_iff.1 h2
      obtain ⟨k, h3, h4⟩ := onCore_eq h1
      obtain ⟨rfl, i, x, h5⟩ := step_read h3
      obtain ⟨k', h3', h4'⟩ := onCore_eq h1'
      obtain ⟨j, h5'⟩ := step_write h3'
      cases h2
      rw [h4] at h3' h4'
      rw [h5] at h3 ⊢
      rw [h5'] at h3' ⊢
      rw [h4']
      exact .closure a c v i j x u k' hpc hc h3 h3'
    simp only [step] at h
    split at h
    · rename_i hpc; exact key _ hpc (.inl rfl) h
    · rename_i hpc; exact key _ hpc (.inr rfl) h
    · cases h
  | finish a =>
    simp only [step] at h
    split at h
    · rename_i r hpc
      obtain ⟨r', h1, h2⟩ := Option.map_eq_some_iff.1 h
      obtain ⟨k, h3, h4⟩ := onCore_eq h1
      obtain ⟨i, x, h5⟩ := step_drop h3
      cases h2
      rcases h5 with h5 | h5
      · rw [h5] at h3 ⊢
        rw [h4]
        exact .finish a r _ i x k hpc (.inl rfl) h3
      · rw [h5] at h3 ⊢
        rw [h4]
        exact .finish a r _ i x k hpc (.inr rfl) h3
    · cases h

/-- `a` has dequeued `x`. -/
def Taken (k : Trace V) (a : OpId) (x : V) : Prop := ∃ i, .dequeue a i (some x) ∈ k

/-- Has a `Ref`. -/
def Held (k : Trace V) (a : OpId) : Call V → Prop
  | .push _ | .pushWith => .ret a .pushed ∈ k
  | .pop | .popWith => .ret a .popped ∈ k ∧ ∃ x, Taken k a x ∧ content a k = some x

/-- Has used the `Ref`. -/
def Ready (k : Trace V) (bs : List (Option V × V × Option U)) (a : OpId) (r : Res V U) : Call V → Prop
  | .push v => .ret a .pushed ∈ k ∧ bs = [] ∧ (r = .ok ∨ r = .panicked) ∧ content a k = some v
  | .pushWith => .ret a .pushed ∈ k ∧ ∃ old new u, bs = [(some old, new, u)] ∧ r = endWith u ∧ content a k = some new
  | .pop => .ret a .popped ∈ k ∧ bs = [] ∧ ∃ x, Taken k a x ∧ ((r = .value (some x) ∧
      ∃ v j, content a k = some v ∧ .access a j (.write v) ∈ k) ∨ (r = .panicked ∧ content a k = some x))
  | .popWith => .ret a .popped ∈ k ∧ ∃ old new u, bs = [(some old, new, u)] ∧ r = endWith u ∧ Taken k a old ∧
      content a k = some new

/-- Ends. -/
def Good (k : Trace V) (bs : List (Option V × V × Option U)) (a : OpId) : Call V → Res V U → Prop
  | .push v, .ok => ∃ i, .commit a i (some v) ∈ k
  | .push v, .full v' => v' = v ∧ .ret a .full ∈ k ∧ a ∉ resOps k
  | .push v, .panicked => (∃ i, .commit a i (some v) ∈ k) ∨ .ret a .panicked ∈ k
  | .pushWith, .returned u => ∃ old new i, bs = [(some old, new, some u)] ∧ .commit a i (some new) ∈ k
  | .pushWith, .fullUnit => bs = [] ∧ .ret a .full ∈ k ∧ a ∉ resOps k
  | .pushWith, .panicked => (∃ old new i, bs = [(some old, new, none)] ∧ .commit a i (some new) ∈ k) ∨
      (bs = [] ∧ .ret a .panicked ∈ k)
  | .pop, .value x => ∃ y, x = some y ∧ Taken k a y ∧ ∃ i j v, .access a j (.write v) ∈ k ∧ .release a i (some v) ∈ k
  | .pop, .none => .ret a .empty ∈ k ∧ a ∉ deqOps k
  | .pop, .panicked => ∃ x i, Taken k a x ∧ .release a i (some x) ∈ k
  | .popWith, .returned u => ∃ old new i, bs = [(some old, new, some u)] ∧ Taken k a old ∧ .release a i (some new) ∈ k
  | .popWith, .none => bs = [] ∧ .ret a .empty ∈ k ∧ a ∉ deqOps k
  | .popWith, .panicked => ∃ old new i, bs = [(some old, new, none)] ∧ Taken k a old ∧ .release a i (some new) ∈ k
  | _, _ => False

/-- What is known of a call by its place. -/
def Phase (tr : List (Ev V U)) (a : OpId) : PC V U → Prop
  | .idle => (∀ c, .call a c ∉ tr) ∧ bodies a tr = []
  | .ref c => .call a c ∈ tr ∧ .invoke a c.op ∈ coreOf tr ∧ bodies a tr = []
  | .hold c => .call a c ∈ tr ∧ Held (coreOf tr) a c ∧ bodies a tr = []
  | .drop r => ∃ c, .call a c ∈ tr ∧ Ready (coreOf tr) (bodies a tr) a r c
  | .done => True

structure Inv (tr : List (Ev V U)) (s : State w V U) : Prop where
  ph : ∀ a, Phase tr a (s.pc a)
  uniq : ∀ a c c', .call a c ∈ tr → .call a c' ∈ tr → c = c'
  open' : ∀ b p, .invoke b (.close p) ∉ coreOf tr
  one : ∀ a, (bodies a tr).length ≤ 1
  com : ∀ a i x, .commit a i x ∈ coreOf tr → (∀ v, .call a (.push v) ∈ tr → x = some v) ∧
    (∀ o n u, .call a .pushWith ∈ tr → .body a o n u ∈ tr → x = some n)
  rets : ∀ pre a r post, tr = pre ++ .ret a r :: post → ∃ c, .call a c ∈ pre ∧ Good (coreOf pre) (bodies a pre) a c r

theorem Taken.mono {k l : Trace V} {x : V} (h : Taken k a x) : Taken (k ++ l) a x :=
  h.imp fun _ h => List.mem_append_left _ h

/-- The others do not touch what is known of `b`. -/
theorem Phase.frame {p : PC V U} (h : Phase tr b p) (hab : b ≠ a) (hc : ∀ c, .call b c ∉ evs)
    (he : ∀ e ∈ coreOf evs, e.actor = a) (hb : bodies b evs = []) : Phase (tr ++ evs) b p := by
  have hcon : content b (coreOf tr ++ coreOf evs) = content b (coreOf tr) := content_other he hab _
  cases p with
  | idle => exact ⟨fun c h1 => (List.mem_append.1 h1).elim (h.1 c) (hc c), by simp [h.2, hb]⟩
  | ref c => exact ⟨List.mem_append_left _ h.1, by simp [h.2.1], by simp [h.2.2, hb]⟩
  | hold c =>
    refine ⟨List.mem_append_left _ h.1, ?_, by simp [h.2.2, hb]⟩
    have h1 := h.2.1
    rw [coreOf_append]
    cases c with
    | push v => exact List.mem_append_left _ h1
    | pushWith => exact List.mem_append_left _ h1
    | pop => obtain ⟨h2, x, h3, h4⟩ := h1; exact ⟨List.mem_append_left _ h2, x, h3.mono, hcon.trans h4⟩
    | popWith => obtain ⟨h2, x, h3, h4⟩ := h1; exact ⟨List.mem_append_left _ h2, x, h3.mono, hcon.trans h4⟩
  | drop r =>
    obtain ⟨c, h0, h1⟩ := h
    refine ⟨c, List.mem_append_left _ h0, ?_⟩
    rw [coreOf_append, bodies_append, hb, List.append_nil]
    cases c with
    | push v => exact ⟨List.mem_append_left _ h1.1, h1.2.1, h1.2.2.1, hcon.trans h1.2.2.2⟩
    | pushWith =>
      obtain ⟨h2, o, n, u, h3, h4, h5⟩ := h1
      exact ⟨List.mem_append_left _ h2, o, n, u, h3, h4, hcon.trans h5⟩
    | pop =>
      obtain ⟨h2, h3, x, h4, h5⟩ := h1
      exact ⟨List.mem_append_left _ h2, h3, x, h4.mono, h5.imp (fun ⟨h, v, j, h6, h7⟩ => ⟨h, v, j, hcon.trans h6, List.mem_append_left _ h7⟩)
        fun h => ⟨h.1, hcon.trans h.2⟩⟩
    | popWith =>
      obtain ⟨h2, o, n, u, h3, h4, h5, h6⟩ := h1
      exact ⟨List.mem_append_left _ h2, o, n, u, h3, h4, h5.mono, hcon.trans h6⟩
  | done => trivial

theorem Inv.init : Inv ([] : List (Ev V U)) (State.init w V U) where
  ph := fun a => ⟨by simp, rfl⟩
  uniq := by simp
  open' := by simp [coreOf]
  one := by simp [bodies]
  com := by simp [coreOf]
  rets := by simp

/-- What a step of `a` has to show. -/
theorem Inv.next (h : Inv tr s) {k : Thingbuf.State w V} {pc' : OpId → PC V U} (hpc : ∀ b, b ≠ a → pc' b = s.pc b)
    (hc : ∀ b c, b ≠ a → .call b c ∉ evs) (he : ∀ e ∈ coreOf evs, e.actor = a) (hb : ∀ b, b ≠ a → bodies b evs = [])
    (hp : Phase (tr ++ evs) a (pc' a)) (hu : ∀ c c', .call a c ∈ tr ++ evs → .call a c' ∈ tr ++ evs → c = c')
    (ho : ∀ b p, .invoke b (.close p) ∉ coreOf evs) (h1 : (bodies a (tr ++ evs)).length ≤ 1)
    (hm : ∀ b i x, b ≠ a → .commit b i x ∉ coreOf evs)
    (hcom : ∀ i x, .commit a i x ∈ coreOf (tr ++ evs) → (∀ v, .call a (.push v) ∈ tr ++ evs → x = some v) ∧
      (∀ o n u, .call a .pushWith ∈ tr ++ evs → .body a o n u ∈ tr ++ evs → x = some n))
    (hr : ∀ pre b r post, evs = pre ++ .ret b r :: post →
      ∃ c, .call b c ∈ tr ++ pre ∧ Good (coreOf (tr ++ pre)) (bodies b (tr ++ pre)) b c r) :
    Inv (tr ++ evs) (⟨k, pc'⟩ : State w V U) where
  ph := fun b => by
    by_cases hba : b = a
    · subst hba; exact hp
    · show Phase _ b (pc' b)
      rw [hpc b hba]
      exact (h.ph b).frame hba (fun c => hc b c hba) he (hb b hba)
  uniq := fun b c c' h2 h3 => by
    by_cases hba : b = a
    · subst hba; exact hu c c' h2 h3
    · exact h.uniq b c c' ((List.mem_append.1 h2).resolve_right (hc b c hba))
        ((List.mem_append.1 h3).resolve_right (hc b c' hba))
  open' := fun b p h2 => by
    rw [coreOf_append] at h2
    exact (List.mem_append.1 h2).elim (h.open' b p) (ho b p)
  one := fun b => by
    by_cases hba : b = a
    · subst hba; exact h1
    · rw [bodies_append, hb b hba, List.append_nil]; exact h.one b
  com := fun b i x h2 => by
    by_cases hba : b = a
    · subst hba; exact hcom i x h2
    · rw [coreOf_append] at h2
      obtain ⟨h3, h4⟩ := h.com b i x ((List.mem_append.1 h2).resolve_right (hm b i x hba))
      refine ⟨fun v h5 => h3 v ((List.mem_append.1 h5).resolve_right (hc b _ hba)), fun o n u h5 h6 => h4 o n u
        ((List.mem_append.1 h5).resolve_right (hc b _ hba)) ((List.mem_append.1 h6).resolve_right fun h7 => ?_)⟩
      have : (o, n, u) ∈ bodies b evs := List.mem_filterMap.2 ⟨_, h7, by simp⟩
      rw [hb b hba] at this
      cases this
  rets := fun pre b r post htr => by
    rcases List.append_eq_append_iff.1 htr with ⟨l, h2, h3⟩ | ⟨l, h2, h3⟩
    · subst h2
      exact hr l b r post h3
    · cases l with
      | nil =>
        simp at h2 h3
        subst h2
        have := hr [] b r post h3.symm
        simpa using this
      | cons x l =>
        simp at h3
        obtain ⟨rfl, rfl⟩ := h3
        exact h.rets pre b r l h2

section
variable {m : Prop} {k : Trace V} {r : Ret}

theorem push_ret (h : Facts m w cap k) (hr : .ret a r ∈ k) (hi : .invoke a .push ∈ k) :
    r = .pushed ∨ r = .full ∨ r = .closed ∨ r = .panicked := by
  obtain ⟨x, y, hxy⟩ := List.append_of_mem hr
  obtain ⟨-, -, h1⟩ := h.evOk hxy
  have key : ∀ op, Event.invoke a op ∈ x → op = .push := fun op ho =>
    h.invoke_unique (show Event.invoke a op ∈ k by rw [hxy]; simp [ho]) hi
  cases r with
  | pushed => simp
  | full => simp
  | closed => simp
  | panicked => simp
  | popped => cases key _ h1.2
  | empty => cases key _ h1.2.2.1
  | len n => cases key _ h1.2.2.1
  | closeRet b =>
    rcases h1 with h1 | h1
    · cases key _ h1.1
    · cases key _ h1.1
  | crash x => exact h1.2.2.elim

theorem pushed_inv (h : Facts m w cap k) (hr : .ret a .pushed ∈ k) : .invoke a .push ∈ k := by
  obtain ⟨x, y, hxy⟩ := List.append_of_mem hr
  have := (h.evOk hxy).2.2.2
  rw [hxy]; simp [this]

theorem popped_inv (h : Facts m w cap k) (hr : .ret a .popped ∈ k) : .invoke a .pop ∈ k := by
  obtain ⟨x, y, hxy⟩ := List.append_of_mem hr
  have := (h.evOk hxy).2.2.2
  rw [hxy]; simp [this]

theorem empty_not_deq (h : Facts m w cap k) (hr : .ret a .empty ∈ k) : a ∉ deqOps k := by
  intro hd
  obtain ⟨x, y, hxy⟩ := List.append_of_mem hr
  have h1 := (h.evOk hxy).2.2.2.1
  obtain ⟨i, v, hi⟩ := mem_deqOps.1 hd
  rw [hxy] at hi
  simp only [List.mem_append, List.mem_cons, reduceCtorEq, false_or] at hi
  rcases hi with hi | hi
  · exact h1 (mem_deqOps.2 ⟨i, v, hi⟩)
  · obtain ⟨p, q, rfl⟩ := mem_split hi
    have := (h.evOk (pre := x ++ .ret a .empty :: p) (e := .dequeue a i v) (post := q) (by rw [hxy]; simp)).1.nret
    exact this ⟨.empty, by simp⟩
end

theorem not_ret_map {l : List (Event V)} {pre post : List (Ev V U)} {r : Res V U} : l.map Ev.core ≠ pre ++ .ret b r :: post := by
  intro h
  have : Ev.ret b r ∈ l.map (Ev.core (U := U)) := by rw [h]; simp
  simp at this

theorem snoc_ret {l : List (Ev V U)} (hl : ∀ b r, .ret b r ∉ l) {pre post : List (Ev V U)} {r r' : Res V U}
    (h : l ++ [.ret a r] = pre ++ .ret b r' :: post) : pre = l ∧ b = a ∧ r' = r := by
  rcases List.append_eq_append_iff.1 h with ⟨x, h2, h3⟩ | ⟨x, h2, h3⟩
  · cases x with
    | nil => simp at h2 h3; exact ⟨h2, h3.1.1.symm, h3.1.2.symm⟩
    | cons y x => simp at h3
  · cases x with
    | nil => simp at h2 h3; exact ⟨h2.symm, h3.1.1, h3.1.2⟩
    | cons y x =>
      simp at h3
      rw [h2, ← h3.1] at hl
      exact absurd (by simp) (hl b r')

/-- Nothing that matters for `com` happens. -/
theorem Inv.com_of (h : Inv tr s) (h1 : ∀ i x, .commit a i x ∉ coreOf evs) (h2 : ∀ c, .call a c ∉ evs) (h3 : ∀ o n u, .body a o n u ∉ evs)
    (i : Nat) (x : Option V) (hc : .commit a i x ∈ coreOf (tr ++ evs)) : (∀ v, .call a (.push v) ∈ tr ++ evs → x = some v) ∧
      (∀ o n u, .call a .pushWith ∈ tr ++ evs → .body a o n u ∈ tr ++ evs → x = some n) := by
  rw [coreOf_append] at hc
  obtain ⟨h4, h5⟩ := h.com a i x ((List.mem_append.1 hc).resolve_right (h1 i x))
  exact ⟨fun v h6 => h4 v ((List.mem_append.1 h6).resolve_right (h2 _)), fun o n u h6 h7 => h5 o n u
    ((List.mem_append.1 h6).resolve_right (h2 _)) ((List.mem_append.1 h7).resolve_right (h3 o n u))⟩

theorem commit_res {m : Prop} {k : Trace V} (hf : Facts m w cap k) {i : Nat} {x : Option V} (h : .commit a i x ∈ k) : a ∈ resOps k := by
  obtain ⟨p, q, hpq⟩ := mem_split h
  obtain ⟨⟨j, -, h1⟩, -⟩ := hf.evOk hpq
  rw [hpq, resOps_append]
  exact List.mem_append_left _ (List.mem_of_getElem? h1.res)

theorem Inv.pres (h : Inv tr s) (hm : Move cap s s' evs) (hf : Facts True w cap (coreOf tr ++ coreOf evs)) : Inv (tr ++ evs) s' := by
  cases hm with
  | call a c k hpc hk =>
    have hp := h.ph a
    rw [hpc] at hp
    have hres : ∀ i x, Event.commit a i x ∉ coreOf tr := by
      intro i x hx
      have hs : coreOf tr ++ coreOf [Ev.call a c, (.core (.invoke a c.op) : Ev V U)] = coreOf tr ++ .invoke a c.op :: [] := rfl
      obtain ⟨-, -, h3, -⟩ := hf.evOk hs
      obtain ⟨p, q, hpq⟩ := mem_split hx
      obtain ⟨⟨j, -, h4⟩, -⟩ := hf.evOk (pre := p) (e := .commit a i x) (post := q ++ [.invoke a c.op]) (by rw [hs, hpq]; simp)
      apply h3
      rw [hpq, resOps_append]
      exact List.mem_append_left _ (List.mem_of_getElem? h4.res)
    refine h.next (a := a) (fun b hb => upd_ne _ _ hb) ?_ ?_ ?_ ?_ ?_ ?_ ?_ (by simp [coreOf]) ?_ ?_
    · intro b c' hb; simp; intro h1; exact absurd h1 hb
    · simp [coreOf, Event.actor]
    · intro b _; rfl
    · rw [upd_self]
      exact ⟨by simp, by simp [coreOf], by rw [bodies_append, hp.2]; rfl⟩
    · intro c1 c2 h1 h2
      have e1 : c1 = c := by
        rcases List.mem_append.1 h1 with h1 | h1
        · exact absurd h1 (hp.1 c1)
        · simpa using h1
      have e2 : c2 = c := by
        rcases List.mem_append.1 h2 with h2 | h2
        · exact absurd h2 (hp.1 c2)
        · simpa using h2
      rw [e1, e2]
    · intro b p; cases c <;> simp [coreOf, Call.op]
    · rw [bodies_append, hp.2]; simp [bodies]
    · intro i x hx
      rw [coreOf_append] at hx
      rcases List.mem_append.1 hx with hx | hx
      · exact absurd hx (hres i x)
      · simp [coreOf] at hx
    · intro pre b r post he
      have : Ev.ret b r ∈ [Ev.call a c, .core (.invoke a c.op)] := by rw [he]; simp
      simp at this
  | stay a c act k l hpc hk ha hr hc hcm =>
    have hp := h.ph a
    rw [hpc] at hp
    refine h.next (a := a) (fun b hb => rfl) (by simp) (by simpa using ha) (by simp) ?_ (by simpa using h.uniq a) (by simpa using hc)
      (by simpa using h.one a) (fun b i x _ => by simpa using hcm b i x)
      (h.com_of (fun i x => by simpa using hcm a i x) (by simp) (by simp)) (fun pre b r post he => absurd he not_ret_map)
    rw [hpc]
    exact ⟨List.mem_append_left _ hp.1, by simp [hp.2.1], by simp [hp.2.2]⟩
  | hold a c act k l r hpc hk ha hr hc hcm hf' hdq =>
    have hp := h.ph a
    rw [hpc] at hp
    refine h.next (a := a) (fun b hb => upd_ne _ _ hb) (by simp) (by simpa using ha) (by simp) ?_ (by simpa using h.uniq a) (by simpa using hc)
      (by simpa using h.one a) (fun b i x _ => by simpa using hcm b i x)
      (h.com_of (fun i x => by simpa using hcm a i x) (by simp) (by simp)) (fun pre b r post he => absurd he not_ret_map)
    rw [upd_self]
    refine ⟨List.mem_append_left _ hp.1, ?_, by simp [hp.2.2]⟩
    rw [coreOf_append, coreOf_map]
    rw [coreOf_map] at hf
    have key : r = .popped → .ret a .popped ∈ coreOf tr ++ l ∧ ∃ x, Taken (coreOf tr ++ l) a x ∧ content a (coreOf tr ++ l) = some x := by
      rintro rfl
      obtain ⟨i, v, rfl⟩ := hdq hr
      obtain ⟨-, -, -, b, x, -, rfl, -⟩ := hf.evOk (pre := coreOf tr) (e := .dequeue a i v) (post := [.ret a .popped]) rfl
      exact ⟨by simp, x, ⟨i, by simp⟩, by simp⟩
    cases c with
    | push v => cases r <;> simp [afterRef] at hf'; exact List.mem_append_right _ hr
    | pushWith => cases r <;> simp [afterRef] at hf'; exact List.mem_append_right _ hr
    | pop => cases r <;> simp [afterRef] at hf'; exact key rfl
    | popWith => cases r <;> simp [afterRef] at hf'; exact key rfl
  | over a c act k l r y hpc hk ha hr hc hcm hf' =>
    have hp := h.ph a
    rw [hpc] at hp
    rw [coreOf_append, coreOf_map, show coreOf [Ev.ret a y] = [] from rfl, List.append_nil] at hf
    refine h.next (a := a) (fun b hb => upd_ne _ _ hb) (by simp) ?_ ?_ ?_ (by simpa using h.uniq a) ?_ ?_
      (fun b i x _ => by rw [coreOf_append, coreOf_map]; simpa [coreOf] using hcm b i x)
      (h.com_of (fun i x => by rw [coreOf_append, coreOf_map]; simpa [coreOf] using hcm a i x) (by simp) (by simp)) ?_
    · rw [coreOf_append, coreOf_map]; simpa [coreOf] using ha
    · intro b _; rw [bodies_append, bodies_map]; rfl
    · rw [upd_self]; trivial
    · rw [coreOf_append, coreOf_map]; simpa [coreOf] using hc
    · rw [bodies_append, bodies_append, bodies_map]; simpa [bodies] using h.one a
    · intro pre b r' post he
      obtain ⟨rfl, rfl, rfl⟩ := snoc_ret (by simp) he
      refine ⟨c, List.mem_append_left _ hp.1, ?_⟩
      rw [coreOf_append, coreOf_map, bodies_append, bodies_map, hp.2.2, List.append_nil]
      have hr' : Event.ret b r ∈ coreOf tr ++ l := List.mem_append_right _ hr
      have hcl : Event.ret b .closed ∉ coreOf tr ++ l := (hf.no_internal_panic b).2 fun b p hm =>
        (List.mem_append.1 hm).elim (h.open' b p) (hc b p)
      have hi : Event.invoke b c.op ∈ coreOf tr ++ l := List.mem_append_left _ hp.2.1
      cases c with
      | push v =>
        rcases push_ret hf hr' hi with rfl | rfl | rfl | rfl
        · simp [afterRef] at hf'
        · simp [afterRef] at hf'
          subst hf'
          exact ⟨rfl, hr', fun hx => by rcases (hf.ret_reserved hr').1 hx with h | h <;> cases h⟩
        · exact absurd hr' hcl
        · simp [afterRef] at hf'
          subst hf'
          exact .inr hr'
      | pushWith =>
        rcases push_ret hf hr' hi with rfl | rfl | rfl | rfl
        · simp [afterRef] at hf'
        · simp [afterRef] at hf'
          subst hf'
          exact ⟨rfl, hr', fun hx => by rcases (hf.ret_reserved hr').1 hx with h | h <;> cases h⟩
        · exact absurd hr' hcl
        · simp [afterRef] at hf'
          subst hf'
          exact .inr ⟨rfl, hr'⟩
      | pop =>
        rcases hf.pop_ret hr' hi with rfl | rfl | rfl
        · simp [afterRef] at hf'
        · simp [afterRef] at hf'
          subst hf'
          exact ⟨hr', empty_not_deq hf hr'⟩
        · exact absurd hr' hcl
      | popWith =>
        rcases hf.pop_ret hr' hi with rfl | rfl | rfl
        · simp [afterRef] at hf'
        · simp [afterRef] at hf'
          subst hf'
          exact ⟨rfl, hr', empty_not_deq hf hr'⟩
        · exact absurd hr' hcl
  | assign a v i p k hpc hk =>
    have hp := h.ph a
    rw [hpc] at hp
    have hq : ∀ e, e ∈ (if p then [.panic a] else [] : List (Ev V U)) → e = .panic a := by cases p <;> simp
    have hb : ∀ b, bodies b (if p then [.panic a] else [] : List (Ev V U)) = [] := by cases p <;> simp [bodies]
    have hk : coreOf (if p then [.panic a] else [] : List (Ev V U)) = [] := by cases p <;> rfl
    have hcall : ∀ b c, (.call b c : Ev V U) ∉ [.core (.access a i (.write v))] ++ if p then [.panic a] else [] := by
      intro b c; cases p <;> simp
    have hbody : ∀ b o n u, (.body b o n u : Ev V U) ∉ [.core (.access a i (.write v))] ++ if p then [.panic a] else [] := by
      intro b o n u; cases p <;> simp
    refine h.next (a := a) (fun b hb => upd_ne _ _ hb) (fun b c _ => hcall b c) (by rw [coreOf_append, hk]; simp [coreOf, Event.actor])
      (fun b _ => by rw [bodies_append, hb]; simp [bodies]) ?_
      (fun c c' h1 h2 => h.uniq a c c' ((List.mem_append.1 h1).resolve_right (hcall a c))
        ((List.mem_append.1 h2).resolve_right (hcall a c')))
      (by rw [coreOf_append, hk]; simp [coreOf]) (by rw [bodies_append, bodies_append, hb]; simpa [bodies] using h.one a)
      (by rw [coreOf_append, hk]; simp [coreOf])
      (h.com_of (by rw [coreOf_append, hk]; simp [coreOf]) (by intro c; exact hcall _ _) (by intro o n u; exact hbody _ _ _ _)) ?_
    · rw [upd_self]
      refine ⟨_, List.mem_append_left _ hp.1, ?_⟩
      rw [coreOf_append, bodies_append, hp.2.2, coreOf_append, bodies_append, hb, hk]
      refine ⟨List.mem_append_left _ hp.2.1, rfl, by cases p <;> simp, by simp [coreOf]⟩
    · intro pre b r post he
      have : Ev.ret b r ∈ [(Ev.core (.access a i (.write v)) : Ev V U)] ++ if p then [.panic a] else [] := by rw [he]; simp
      cases p <;> simp at this
  | takePanic a hpc =>
    have hp := h.ph a
    rw [hpc] at hp
    refine h.next (a := a) (fun b hb => upd_ne _ _ hb) (by simp) (by simp [coreOf]) (by simp [bodies]) ?_
      (by simpa using h.uniq a) (by simp [coreOf]) (by simpa [bodies] using h.one a) (by simp [coreOf])
      (h.com_of (by simp [coreOf]) (by simp) (by simp)) ?_
    · rw [upd_self]
      obtain ⟨h1, ⟨h2, x, h3, h4⟩, h5⟩ := hp
      refine ⟨_, List.mem_append_left _ h1, ?_⟩
      rw [coreOf_append, bodies_append, show coreOf [(.panic a : Ev V U)] = [] from rfl,
        show bodies a [(.panic a : Ev V U)] = [] from rfl, List.append_nil, List.append_nil]
      exact ⟨h2, h5, x, h3, .inr ⟨rfl, h4⟩⟩
    · intro pre b r post he
      have : Ev.ret b r ∈ [(.panic a : Ev V U)] := by rw [he]; simp
      simp at this
  | take a v i j x k hpc hk hk' =>
    have hp := h.ph a
    rw [hpc] at hp
    obtain ⟨h1, ⟨h2, y, h3, h4⟩, h5⟩ := hp
    obtain ⟨-, -, h6, -⟩ := hf.evOk (pre := coreOf tr) (e := .access a i (.read x)) (post := [.access a j (.write v)]) rfl
    rw [h4] at h6
    subst h6
    refine h.next (a := a) (fun b hb => upd_ne _ _ hb) (by simp) (by simp [coreOf, Event.actor]) (by simp [bodies]) ?_
      (by simpa using h.uniq a) (by simp [coreOf]) (by simpa [bodies] using h.one a) (by simp [coreOf])
      (h.com_of (by simp [coreOf]) (by simp) (by simp)) ?_
    · rw [upd_self]
      refine ⟨_, List.mem_append_left _ h1, ?_⟩
      rw [coreOf_append, bodies_append, h5]
      exact ⟨List.mem_append_left _ h2, rfl, y, h3.mono, .inl ⟨rfl, v, j, by simp [coreOf], by simp [coreOf]⟩⟩
    · intro pre b r post he
      have : Ev.ret b r ∈ [(Ev.core (.access a i (.read (some y))) : Ev V U), .core (.access a j (.write v))] := by rw [he]; simp
      simp at this
  | closure a c v i j x u k hpc hc hk hk' =>
    have hp := h.ph a
    rw [hpc] at hp
    obtain ⟨h1, h2, h5⟩ := hp
    obtain ⟨-, -, h6, y, h7⟩ := hf.evOk (pre := coreOf tr) (e := .access a i (.read x)) (post := [.access a j (.write v)]) rfl
    subst h7
    refine h.next (a := a) (fun b hb => upd_ne _ _ hb) (by simp) (by simp [coreOf, Event.actor]) ?_ ?_
      (by simpa using h.uniq a) (by simp [coreOf]) ?_ (by simp [coreOf]) ?_ ?_
    · intro b hb; simp [bodies]; intro h; exact absurd h.symm hb
    · rw [upd_self]
      refine ⟨_, List.mem_append_left _ h1, ?_⟩
      rw [coreOf_append, bodies_append, h5]
      rcases hc with rfl | rfl
      · exact ⟨List.mem_append_left _ h2, y, v, u, by simp [bodies], rfl, by simp [coreOf]⟩
      · obtain ⟨h8, z, h9, h10⟩ := h2
        rw [h10] at h6
        cases h6
        exact ⟨List.mem_append_left _ h8, y, v, u, by simp [bodies], rfl, h9.mono, by simp [coreOf]⟩
    · rw [bodies_append, h5]; simp [bodies]
    · intro i' x' hx
      have hx : Event.commit a i' x' ∈ coreOf tr := by simpa [coreOf] using hx
      obtain ⟨⟨q, -, ho⟩, -⟩ := hf.evOk (pre := coreOf tr) (e := .access a i (.read (some y))) (post := [.access a j (.write v)]) rfl
      rcases ho with ho | ho
      · exact absurd ⟨_, _, hx⟩ ho.ncom
      · exact absurd ⟨_, _, hx⟩ ho.ncom
    · intro pre b r post he
      have : Ev.ret b r ∈ [(Ev.core (.access a i (.read (some y))) : Ev V U), .core (.access a j (.write v)), .body a (some y) v u] := by rw [he]; simp
      simp at this
  | finish a r e i x k hpc he hk =>
    have hp := h.ph a
    rw [hpc] at hp
    obtain ⟨c, h1, h2⟩ := hp
    have hact : e.actor = a := by rcases he with rfl | rfl <;> rfl
    refine h.next (a := a) (fun b hb => upd_ne _ _ hb) (by simp) (by simpa [coreOf] using hact) (by simp [bodies]) ?_
      (by simpa using h.uniq a) ?_ (by simpa [bodies] using h.one a) ?_ ?_ ?_
    · rw [upd_self]; trivial
    · intro b p; rcases he with rfl | rfl <;> simp [coreOf]
    · intro b i' x' hb; rcases he with rfl | rfl <;> simp [coreOf]; intro h'; exact absurd h' hb
    · intro i' x' hx
      rw [coreOf_append] at hx
      rcases List.mem_append.1 hx with hx | hx
      · obtain ⟨h3, h4⟩ := h.com a i' x' hx
        exact ⟨fun v h5 => h3 v (by simpa using h5), fun o n u h5 h6 => h4 o n u (by simpa using h5) (by simpa using h6)⟩
      · have hx : Event.commit a i' x' = e := by simpa [coreOf] using hx
        subst hx
        have hx' : x' = content a (coreOf tr) := (hf.evOk (pre := coreOf tr) (e := .commit a i' x') (post := []) rfl).2.2.1
        refine ⟨fun v h5 => ?_, fun o n u h5 h6 => ?_⟩
        · have h5 : Ev.call a (.push v) ∈ tr := by simpa using h5
          cases h.uniq a _ _ h1 h5
          rw [hx', h2.2.2.2]
        · have h5 : Ev.call a .pushWith ∈ tr := by simpa using h5
          have h6 : Ev.body a o n u ∈ tr := by simpa using h6
          cases h.uniq a _ _ h1 h5
          obtain ⟨-, o', n', u', h7, -, h8⟩ := h2
          have : (o, n, u) ∈ bodies a tr := List.mem_filterMap.2 ⟨_, h6, by simp⟩
          rw [h7] at this
          simp at this
          rw [hx', h8, this.2.1]
    · intro pre b r' post hs
      obtain ⟨rfl, rfl, rfl⟩ := snoc_ret (l := [.core e]) (by simp) hs
      refine ⟨c, List.mem_append_left _ h1, ?_⟩
      have hf : Facts True w cap (coreOf tr ++ [e]) := hf
      rw [coreOf_append, bodies_append, show bodies b [(Ev.core e : Ev V U)] = [] from rfl, List.append_nil,
        show coreOf [(Ev.core e : Ev V U)] = [e] from rfl]
      have hpush : Event.ret b .pushed ∈ coreOf tr → e = .commit b i (content b (coreOf tr)) := by
        intro hr
        have hi := pushed_inv hf (List.mem_append_left _ hr)
        rcases he with rfl | rfl
        · obtain ⟨-, -, rfl, -⟩ := hf.evOk (pre := coreOf tr) (e := .commit b i x) (post := []) rfl
          rfl
        · obtain ⟨⟨p, -, h3⟩, -⟩ := hf.evOk (pre := coreOf tr) (e := .release b i x) (post := []) rfl
          cases hf.invoke_unique hi (List.mem_append_left _ h3.inv)
      have hpop : Event.ret b .popped ∈ coreOf tr → e = .release b i (content b (coreOf tr)) := by
        intro hr
        have hi := popped_inv hf (List.mem_append_left _ hr)
        rcases he with rfl | rfl
        · obtain ⟨⟨p, -, h3⟩, -⟩ := hf.evOk (pre := coreOf tr) (e := .commit b i x) (post := []) rfl
          cases hf.invoke_unique hi (List.mem_append_left _ h3.inv)
        · obtain ⟨-, -, rfl, -⟩ := hf.evOk (pre := coreOf tr) (e := .release b i x) (post := []) rfl
          rfl
      cases c with
      | push v =>
        obtain ⟨h3, h4, h5, h6⟩ := h2
        have := hpush h3
        rw [h6] at this
        rcases h5 with rfl | rfl
        · exact ⟨i, by simp [this]⟩
        · exact .inl ⟨i, by simp [this]⟩
      | pushWith =>
        obtain ⟨h3, o, n, u, h4, rfl, h6⟩ := h2
        have := hpush h3
        rw [h6] at this
        cases u with
        | some u => exact ⟨o, n, i, h4, by simp [this]⟩
        | none => exact .inl ⟨o, n, i, h4, by simp [this]⟩
      | pop =>
        obtain ⟨h3, h4, y, h5, h6⟩ := h2
        have := hpop h3
        rcases h6 with ⟨rfl, v, j, h6, h7⟩ | ⟨rfl, h6⟩
        · rw [h6] at this
          exact ⟨y, rfl, h5.mono, i, j, v, List.mem_append_left _ h7, by simp [this]⟩
        · rw [h6] at this
          exact ⟨y, i, h5.mono, by simp [this]⟩
      | popWith =>
        obtain ⟨h3, o, n, u, h4, rfl, h5, h6⟩ := h2
        have := hpop h3
        rw [h6] at this
        cases u with
        | some u => exact ⟨o, n, i, h4, h5.mono, by simp [this]⟩
        | none => exact ⟨o, n, i, h4, h5.mono, by simp [this]⟩

theorem Move.core {tr : Trace V} (hm : Move cap s s' evs) (h : Thingbuf.Exec w cap tr s.core) :
    Thingbuf.Exec w cap (tr ++ coreOf evs) s'.core := by
  cases hm with
  | call a c k hpc hk => exact h.step hk
  | stay a c act k l hpc hk => rw [coreOf_map]; exact h.step hk
  | hold a c act k l r hpc hk => rw [coreOf_map]; exact h.step hk
  | over a c act k l r y hpc hk =>
    rw [coreOf_append, coreOf_map, show coreOf [Ev.ret a y] = [] from rfl, List.append_nil]
    exact h.step hk
  | assign a v i p k hpc hk => cases p <;> exact h.step hk
  | takePanic a hpc => simpa [coreOf] using h
  | take a v i j x k hpc hk hk' =>
    have := (h.step hk).step hk'
    rwa [List.append_assoc] at this
  | closure a c v i j x u k hpc hc hk hk' =>
    have := (h.step hk).step hk'
    rwa [List.append_assoc] at this
  | finish a r e i x k hpc he hk => exact h.step hk

theorem Exec.core (h : Exec w cap tr s) : Thingbuf.Exec w cap (coreOf tr) s.core := by
  induction h with
  | init => exact .init
  | step _ hs ih => rw [coreOf_append]; exact (step_move hs).core ih

theorem Run.core (h : Run w cap tr s) : Thingbuf.Run w cap (coreOf tr) s.core := ⟨h.sized, h.exec.core, h.noStall⟩

theorem Run.inv (h : Run w cap tr s) : Inv tr s := by
  obtain ⟨hw, he, hn⟩ := h
  induction he with
  | init => exact .init
  | step he hs ih =>
    rw [coreOf_append] at hn
    have hn' := fun p (hp : p <+: coreOf _) => hn p (hp.trans (List.prefix_append _ _))
    have hr : Thingbuf.Run w cap _ _ := ⟨hw, (step_move hs).core he.core, hn⟩
    exact (ih hn').pres (step_move hs) hr.facts

theorem mem_coreOf {e : Event V} : e ∈ coreOf tr ↔ .core e ∈ tr := by
  simp only [coreOf, List.mem_filterMap]
  constructor
  · rintro ⟨x, h1, h2⟩
    cases x with
    | core e' => cases h2; exact h1
    | _ => simp at h2
  · intro h; exact ⟨_, h, rfl⟩

theorem UserPanic.append {l : List (Ev V U)} : UserPanic (tr ++ l) a ↔ UserPanic tr a ∨ UserPanic l a := by
  simp only [UserPanic, coreOf_append, List.mem_append]
  constructor
  · rintro ((h | h) | (h | h) | ⟨o, n, h | h⟩)
    · exact .inl (.inl h)
    · exact .inr (.inl h)
    · exact .inl (.inr (.inl h))
    · exact .inr (.inr (.inl h))
    · exact .inl (.inr (.inr ⟨o, n, h⟩))
    · exact .inr (.inr (.inr ⟨o, n, h⟩))
  · rintro ((h | h | ⟨o, n, h⟩) | (h | h | ⟨o, n, h⟩))
    · exact .inl (.inl h)
    · exact .inr (.inl (.inl h))
    · exact .inr (.inr ⟨o, n, .inl h⟩)
    · exact .inl (.inr h)
    · exact .inr (.inl (.inr h))
    · exact .inr (.inr ⟨o, n, .inr h⟩)

/-- No call is in progress in which user code has panicked, except on its way out. -/
def PPhase (tr : List (Ev V U)) (a : OpId) : PC V U → Prop
  | .idle | .ref _ | .hold _ => ¬ UserPanic tr a
  | .drop r => r = .panicked ↔ UserPanic tr a
  | .done => True

structure PInv (tr : List (Ev V U)) (s : State w V U) : Prop where
  ph : ∀ a, PPhase tr a (s.pc a)
  rets : ∀ pre a r post, tr = pre ++ .ret a r :: post → (r = .panicked ↔ UserPanic pre a)

theorem PInv.next (h : PInv tr s) {k : Thingbuf.State w V} {pc' : OpId → PC V U} (hpc : ∀ b, b ≠ a → pc' b = s.pc b)
    (he : ∀ b, b ≠ a → ¬ UserPanic evs b) (hp : PPhase (tr ++ evs) a (pc' a))
    (hr : ∀ pre b r post, evs = pre ++ .ret b r :: post → (r = .panicked ↔ UserPanic (tr ++ pre) b)) :
    PInv (tr ++ evs) (⟨k, pc'⟩ : State w V U) where
  ph := fun b => by
    by_cases hba : b = a
    · subst hba; exact hp
    · show PPhase _ b (pc' b)
      rw [hpc b hba]
      have h1 := h.ph b
      have h2 : UserPanic (tr ++ evs) b ↔ UserPanic tr b := by rw [UserPanic.append]; simp [he b hba]
      revert h1
      cases s.pc b <;> simp [PPhase, h2]
  rets := fun pre b r post htr => by
    rcases List.append_eq_append_iff.1 htr with ⟨l, h2, h3⟩ | ⟨l, h2, h3⟩
    · subst h2
      exact hr l b r post h3
    · cases l with
      | nil =>
        simp at h2 h3
        subst h2
        have := hr [] b r post h3.symm
        simpa using this
      | cons x l =>
        simp at h3
        obtain ⟨rfl, h3⟩ := h3
        exact h.rets pre b r l h2

theorem UserPanic.map {l : List (Event V)} : UserPanic (l.map (Ev.core (U := U))) a ↔ .ret a .panicked ∈ l := by
  simp [UserPanic]

theorem PInv.init : PInv ([] : List (Ev V U)) (State.init w V U) where
  ph := fun a => by simp [PPhase, UserPanic, State.init, coreOf]
  rets := by simp

theorem afterRef_panicked {c : Call V} {r : Ret} {y : Res V U} (h : afterRef c r = some y) : y = .panicked ↔ r = .panicked := by
  cases c <;> cases r <;> simp [afterRef] at h <;> subst h <;> simp

theorem PInv.pres (h : PInv tr s) (hm : Move cap s s' evs) (hf : Facts True w cap (coreOf tr ++ coreOf evs)) :
    PInv (tr ++ evs) s' := by
  cases hm with
  | call a c k hpc hk =>
    have hp := h.ph a
    rw [hpc] at hp
    refine h.next (a := a) (fun b hb => upd_ne _ _ hb) (by simp [UserPanic, coreOf]) ?_ ?_
    · rw [upd_self]; intro h1
      rcases UserPanic.append.1 h1 with h1 | h1
      · exact hp h1
      · simp [UserPanic, coreOf] at h1
    · intro pre b r post he
      have : Ev.ret b r ∈ [Ev.call a c, (.core (.invoke a c.op) : Ev V U)] := by rw [he]; simp
      simp at this
  | stay a c act k l hpc hk ha hr hc hm =>
    have hp := h.ph a
    rw [hpc] at hp
    have hno : ∀ b, ¬ UserPanic (l.map (Ev.core (U := U))) b := fun b h1 => by
      have h1 := UserPanic.map.1 h1
      have h2 : b = a := ha _ h1
      subst h2
      exact hr _ h1
    refine h.next (a := a) (fun b hb => rfl) (fun b _ => hno b) ?_ ?_
    · rw [hpc]; intro h1
      exact (UserPanic.append.1 h1).elim hp (hno a)
    · intro pre b r post he
      have : Ev.ret b r ∈ l.map (Ev.core (U := U)) := by rw [he]; simp
      simp at this
  | hold a c act k l x hpc hk ha hr hc hm hf' hp' =>
    have hp := h.ph a
    rw [hpc] at hp
    have hno : ∀ b, ¬ UserPanic (l.map (Ev.core (U := U))) b := fun b h1 => by
      have h1 := UserPanic.map.1 h1
      have h2 : b = a := ha _ h1
      subst h2
      rw [coreOf_map] at hf
      cases hf.ret_unique (List.mem_append_right _ h1) (List.mem_append_right _ hr)
      cases c <;> cases hf'
    refine h.next (a := a) (fun b hb => upd_ne _ _ hb) (fun b _ => hno b) ?_ ?_
    · rw [upd_self]; intro h1
      exact (UserPanic.append.1 h1).elim hp (hno a)
    · intro pre b r post he
      have : Ev.ret b r ∈ l.map (Ev.core (U := U)) := by rw [he]; simp
      simp at this
  | over a c act k l x y hpc hk ha hr hc hm hf' =>
    have hp := h.ph a
    rw [hpc] at hp
    refine h.next (a := a) (fun b hb => upd_ne _ _ hb) ?_ ?_ ?_
    · intro b hb h1
      rcases UserPanic.append.1 h1 with h1 | h1
      · exact hb (ha _ (UserPanic.map.1 h1))
      · simp [UserPanic, coreOf] at h1
    · rw [upd_self]; trivial
    · intro pre b r post he
      obtain ⟨rfl, rfl, rfl⟩ := snoc_ret (l := l.map .core) (by simp) he
      rw [afterRef_panicked hf', UserPanic.append, UserPanic.map]
      constructor
      · rintro rfl; exact .inr hr
      · rintro (h1 | h1)
        · exact absurd h1 hp
        · rw [coreOf_append, coreOf_map] at hf
          exact hf.ret_unique (List.mem_append_right _ (List.mem_append_left _ hr)) (List.mem_append_right _ (List.mem_append_left _ h1))
  | assign a v i p k hpc hk =>
    have hp := h.ph a
    rw [hpc] at hp
    have hq : ∀ b, UserPanic ([(.core (.access a i (.write v)) : Ev V U)] ++ if p then [.panic a] else []) b ↔ p = true ∧ b = a := by
      intro b; cases p <;> simp [UserPanic, coreOf]
    refine h.next (a := a) (fun b hb => upd_ne _ _ hb) (fun b hb h1 => hb ((hq b).1 h1).2) ?_ ?_
    · rw [upd_self]
      show _ ↔ _
      rw [UserPanic.append, hq]
      have hp : ¬ UserPanic tr a := hp
      cases p <;> simp [hp]
    · intro pre b r post he
      have : Ev.ret b r ∈ [(Ev.core (.access a i (.write v)) : Ev V U)] ++ if p then [.panic a] else [] := by rw [he]; simp
      cases p <;> simp at this
  | takePanic a hpc =>
    refine h.next (a := a) (fun b hb => upd_ne _ _ hb) (fun b hb h1 => by simp [UserPanic, coreOf] at h1; exact hb h1) ?_ ?_
    · rw [upd_self]
      show _ ↔ _
      rw [UserPanic.append]
      simp [UserPanic]
    · intro pre b r post he
      have : Ev.ret b r ∈ [(.panic a : Ev V U)] := by rw [he]; simp
      simp at this
  | take a v i j x k hpc hk hk' =>
    have hp := h.ph a
    rw [hpc] at hp
    have hp : ¬ UserPanic tr a := hp
    refine h.next (a := a) (fun b hb => upd_ne _ _ hb) (by simp [UserPanic, coreOf]) ?_ ?_
    · rw [upd_self]
      show _ ↔ _
      rw [UserPanic.append]
      simp [hp]
      simp [UserPanic, coreOf]
    · intro pre b r post he
      have : Ev.ret b r ∈ [(Ev.core (.access a i (.read x)) : Ev V U), .core (.access a j (.write v))] := by rw [he]; simp
      simp at this
  | closure a c v i j x u k hpc hc hk hk' =>
    have hp := h.ph a
    rw [hpc] at hp
    have hp : ¬ UserPanic tr a := hp
    have hq : ∀ b, UserPanic [(Ev.core (.access a i (.read x)) : Ev V U), .core (.access a j (.write v)), .body a x v u] b ↔
        b = a ∧ u = none := by
      intro b; simp [UserPanic, coreOf, eq_comm]
    refine h.next (a := a) (fun b hb => upd_ne _ _ hb) (fun b hb h1 => hb ((hq b).1 h1).1) ?_ ?_
    · rw [upd_self]
      show _ ↔ _
      rw [UserPanic.append, hq]
      cases u <;> simp [hp, endWith]
    · intro pre b r post he
      have : Ev.ret b r ∈ [(Ev.core (.access a i (.read x)) : Ev V U), .core (.access a j (.write v)), .body a x v u] := by rw [he]; simp
      simp at this
  | finish a r e i x k hpc he hk =>
    have hp := h.ph a
    rw [hpc] at hp
    have hp : _ ↔ _ := hp
    have hno : ∀ b, ¬ UserPanic [(Ev.core e : Ev V U)] b := by rcases he with rfl | rfl <;> simp [UserPanic, coreOf]
    refine h.next (a := a) (fun b hb => upd_ne _ _ hb) ?_ ?_ ?_
    · intro b _; rcases he with rfl | rfl <;> simp [UserPanic, coreOf]
    · rw [upd_self]; trivial
    · intro pre b r' post hs
      obtain ⟨rfl, rfl, rfl⟩ := snoc_ret (l := [.core e]) (by simp) hs
      rw [UserPanic.append, hp]
      simp [hno]

theorem Run.pinv (h : Run w cap tr s) : PInv tr s := by
  obtain ⟨hw, he, hn⟩ := h
  induction he with
  | init => exact .init
  | step he hs ih =>
    rw [coreOf_append] at hn
    have hn' := fun p (hp : p <+: coreOf _) => hn p (hp.trans (List.prefix_append _ _))
    have hr : Thingbuf.Run w cap _ _ := ⟨hw, (step_move hs).core he.core, hn⟩
    exact (ih hn').pres (step_move hs) hr.facts

end Thingbuf.ByVal
