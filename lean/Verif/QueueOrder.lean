import Verif.QueueEvents

/-!
# The order of waiting nodes, from the trace

Helper lemmas for `QueueProps`.
-/

namespace Thingbuf.Queue

variable {W : Type} {c : Config W} {bm : Bool}

/-- The event takes node `n` out of the list. -/
def Event.leaves (n : Nat) (e : Event W) : Prop := (∃ o, e = .deq o n) ∨ e = .rem n

theorem queueOf_snoc (tr : Trace W) (e : Event W) : queueOf (tr ++ [e]) = qstep (queueOf tr) e := by
  simp [queueOf]

theorem queueOf_nodup {tr : Trace W} (h : AllOk (EvOkM bm c) tr) : (queueOf tr).Nodup := by
  revert h
  induction tr using snoc_induction
  · intro _; simp [queueOf]
  · rename_i l e ih
    intro h
    have h1 := ih (h.prefix ⟨[e], rfl⟩)
    have h2 := h l e [] rfl
    rw [queueOf_snoc]
    cases e
    case enq n v => exact List.nodup_cons.2 ⟨h2.1, h1⟩
    case deq o n => exact h1.erase _
    case rem n => exact h1.erase _
    all_goals exact h1

theorem mem_qstep {q : List Nat} (hq : q.Nodup) {e : Event W} {n : Nat} :
    n ∈ qstep q e ↔ (∃ v, e = .enq n v) ∨ (n ∈ q ∧ ¬ e.leaves n) := by
  cases e
  case enq m v =>
    simp only [qstep, List.mem_cons, Event.leaves]
    constructor
    · rintro (rfl | h)
      · exact .inl ⟨v, rfl⟩
      · exact .inr ⟨h, by simp⟩
    · rintro (⟨w, h⟩ | h)
      · simp only [Event.enq.injEq] at h; exact .inl h.1.symm
      · exact .inr h.1
  case deq o m =>
    simp only [qstep, hq.mem_erase_iff, Event.leaves]
    constructor
    · rintro ⟨h1, h2⟩
      refine .inr ⟨h2, ?_⟩
      rintro (⟨o', h⟩ | h)
      · simp only [Event.deq.injEq] at h; exact h1 h.2.symm
      · cases h
    · rintro (⟨w, h⟩ | ⟨h, h1⟩)
      · cases h
      · exact ⟨fun he => h1 (.inl ⟨o, by rw [he]⟩), h⟩
  case rem m =>
    simp only [qstep, hq.mem_erase_iff, Event.leaves]
    constructor
    · rintro ⟨h1, h2⟩
      refine .inr ⟨h2, ?_⟩
      rintro (⟨o', h⟩ | h)
      · cases h
      · simp only [Event.rem.injEq] at h; exact h1 h.symm
    · rintro (⟨w, h⟩ | ⟨h, h1⟩)
      · cases h
      · exact ⟨fun he => h1 (.inr (by rw [he])), h⟩
  all_goals simp [qstep, Event.leaves]

/-- The waiting nodes are those that were enqueued and have since not left. -/
theorem mem_queueOf {tr : Trace W} (h : AllOk (EvOkM bm c) tr) {n : Nat} :
    n ∈ queueOf tr ↔ ∃ a v b, tr = a ++ .enq n v :: b ∧ ∀ e ∈ b, ¬ e.leaves n := by
  revert h
  induction tr using snoc_induction
  · intro _; simp [queueOf]
  · rename_i l e ih
    intro h
    have hp := h.prefix (pre := l) ⟨[e], rfl⟩
    rw [queueOf_snoc, mem_qstep (queueOf_nodup hp), ih hp]
    constructor
    · rintro (⟨v, rfl⟩ | ⟨⟨a, v, b, rfl, h1⟩, h2⟩)
      · exact ⟨l, v, [], rfl, by simp⟩
      · refine ⟨a, v, b ++ [e], by simp, ?_⟩
        intro x hx
        rcases List.mem_append.1 hx with hx | hx
        · exact h1 x hx
        · simp only [List.mem_singleton] at hx; subst hx; exact h2
    · rintro ⟨a, v, b, h1, h2⟩
      rcases append_split h1 with ⟨post, h3, h4⟩ | ⟨e1, h3, h4⟩
      · subst h3
        exact .inr ⟨⟨a, v, post, h4, fun x hx => h2 x (by simp [hx])⟩, h2 e (by simp)⟩
      · cases e1 with
        | nil => simp at h3; exact .inl ⟨v, h3.1⟩
        | cons x e1 => simp at h3

/-- Of two waiting nodes the one nearer to the old end of the list was enqueued first. -/
theorem queue_order {tr : Trace W} (h : AllOk (EvOkM bm c) tr) {m n : Nat}
    (hs : [m, n].Sublist (queueOf tr)) :
    ∃ a u b v d, tr = a ++ .enq n u :: (b ++ .enq m v :: d) ∧
      (∀ e ∈ b ++ .enq m v :: d, ¬ e.leaves n) ∧ ∀ e ∈ d, ¬ e.leaves m := by
  revert h hs
  induction tr using snoc_induction
  · intro _ h; simp [queueOf] at h
  · rename_i l e ih
    intro h hs
    have hp := h.prefix (pre := l) ⟨[e], rfl⟩
    have hnd := queueOf_nodup hp
    have hm : m ∈ queueOf (l ++ [e]) := hs.subset (by simp)
    have hn : n ∈ queueOf (l ++ [e]) := hs.subset (by simp)
    rw [queueOf_snoc] at hs hm hn
    have hmn : m ≠ n := by
      have := queueOf_nodup h
      rw [queueOf_snoc] at this
      have := this.sublist hs
      simpa using this
    rw [mem_qstep hnd] at hm hn
    have old : [m, n].Sublist (queueOf l) → ¬ e.leaves m → ¬ e.leaves n →
        ∃ a u b v d, l ++ [e] = a ++ .enq n u :: (b ++ .enq m v :: d) ∧
          (∀ e ∈ b ++ .enq m v :: d, ¬ e.leaves n) ∧ ∀ e ∈ d, ¬ e.leaves m := by
      intro h1 h2 h3
      obtain ⟨a, u, b, v, d, rfl, h4, h5⟩ := ih hp h1
      refine ⟨a, u, b, v, d ++ [e], by simp, ?_, ?_⟩
      · intro x hx
        simp only [List.mem_append, List.mem_cons, List.mem_singleton, List.not_mem_nil, or_false] at hx
        rcases hx with hx | rfl | hx | rfl
        · exact h4 x (by simp [hx])
        · exact h4 _ (by simp)
        · exact h4 x (by simp [hx])
        · exact h3
      · intro x hx
        rcases List.mem_append.1 hx with hx | hx
        · exact h5 x hx
        · simp only [List.mem_singleton] at hx; subst hx; exact h2
    rcases hm with ⟨v, rfl⟩ | ⟨hm, hml⟩
    · simp only [qstep] at hs
      rw [List.sublist_cons_iff] at hs
      have hnl : n ∈ queueOf l := by
        rcases hn with ⟨v', hn⟩ | hn
        · simp only [Event.enq.injEq] at hn; exact absurd hn.1 hmn
        · exact hn.1
      obtain ⟨a, u, b, rfl, h2⟩ := (mem_queueOf hp).1 hnl
      refine ⟨a, u, b, v, [], by simp, ?_, by simp⟩
      intro x hx
      rcases List.mem_append.1 hx with hx | hx
      · exact h2 x hx
      · simp only [List.mem_singleton] at hx; subst hx; simp [Event.leaves]
    · rcases hn with ⟨v, rfl⟩ | ⟨hn, hnl⟩
      · simp only [qstep] at hs
        have h1 := (h l _ [] rfl).1
        rcases List.sublist_cons_iff.1 hs with h2 | ⟨r, h2, h3⟩
        · exact absurd (h2.subset (by simp)) h1
        · simp only [List.cons.injEq] at h2; exact absurd h2.1 hmn
      · refine old ?_ hml hnl
        cases e
        case enq k w =>
          simp only [qstep] at hs
          rcases List.sublist_cons_iff.1 hs with h2 | ⟨r, h2, h3⟩
          · exact h2
          · simp only [List.cons.injEq] at h2
            obtain ⟨rfl, rfl⟩ := h2
            exact absurd hm (h l _ [] rfl).1
        case deq o k => exact hs.trans List.erase_sublist
        case rem k => exact hs.trans List.erase_sublist
        all_goals exact hs

/-- Where a waiting node was enqueued is determined. -/
theorem enq_unique {tr : Trace W} (h : AllOk (EvOkM bm c) tr) {n : Nat} {a b a' b' : Trace W} {v v' : W}
    (h1 : tr = a ++ .enq n v :: b) (h2 : ∀ e ∈ b, ¬ e.leaves n)
    (h1' : tr = a' ++ .enq n v' :: b') (h2' : ∀ e ∈ b', ¬ e.leaves n) : a = a' ∧ v = v' ∧ b = b' := by
  have aux : ∀ {a b a' b' : Trace W} {v v' : W}, tr = a ++ .enq n v :: b → (∀ e ∈ b, ¬ e.leaves n) →
      tr = a' ++ .enq n v' :: b' → ¬ ∃ e1, a' = a ++ .enq n v :: e1 := by
    rintro a b a' b' v v' h1 h2 h1' ⟨e1, rfl⟩
    refine (h _ _ _ h1').1 ?_
    rw [mem_queueOf (h.prefix ⟨_, h1'.symm⟩)]
    refine ⟨a, v, e1, rfl, fun e he => h2 e ?_⟩
    rw [h1] at h1'
    simp only [List.append_assoc, List.cons_append, List.append_cancel_left_eq, List.cons.injEq] at h1'
    rw [h1'.2]; simp [he]
  have h3 := h1
  rw [h1'] at h3
  rcases List.append_eq_append_iff.1 h3 with ⟨l, h4, h5⟩ | ⟨l, h4, h5⟩
  · cases l with
    | nil => simp only [List.append_nil, List.nil_append, List.cons.injEq, Event.enq.injEq] at h4 h5; simp_all
    | cons x l =>
      simp only [List.cons_append, List.cons.injEq] at h5
      exact absurd ⟨l, by rw [h4, ← h5.1]⟩ (aux h1' h2' h1)
  · cases l with
    | nil => simp only [List.append_nil, List.nil_append, List.cons.injEq, Event.enq.injEq] at h4 h5; simp_all
    | cons x l =>
      simp only [List.cons_append, List.cons.injEq] at h5
      exact absurd ⟨l, by rw [h4, ← h5.1]⟩ (aux h1 h2 h1')

/-! ## What a finished call did -/

theorem closePairs_not {o : Nat} {e : Event W} (h1 : ∀ n, e ≠ .deq o n) (h2 : ∀ n v, e ≠ .wake o n v)
    (l : List (Nat × W)) : e ∉ closePairs o l := by
  induction l with
  | nil => simp [closePairs]
  | cons x l ih => obtain ⟨n, v⟩ := x; simp [closePairs, ih, h1 n, h2 n v]

theorem ExecM.retNotify_cases {tr : Trace W} {s : State W} (h : ExecM bm c tr s) {o : Nat} {b : Bool}
    (hr : .retNotify o b ∈ tr) :
    (b = false ∧ opEvs tr o = [.callNotify o, .store o, .retNotify o false]) ∨
    (b = true ∧ ∃ n v, opEvs tr o = [.callNotify o, .deq o n, .wake o n v, .retNotify o true]) ∨
    (b = false ∧ c.debug = false ∧ opEvs tr o = [.callNotify o, .retNotify o false]) := by
  have ho := h.opHist o
  rw [← mem_opEvs (o := o) rfl] at hr
  have hcp := closePairs_not (o := o) (e := Event.retNotify (W := W) o b) (by simp) (by simp)
  unfold OpHist at ho
  split at ho
  all_goals first
    | (simp_all; done)
    | skip
  · obtain ⟨l, ho⟩ := ho
    rw [ho] at hr
    simp [hcp] at hr
  · obtain ⟨l, ho⟩ := ho
    rw [ho] at hr
    simp [hcp] at hr
  · rcases ho with ho | ⟨n, v, ho⟩ | ⟨ho, hd⟩ | ⟨l, ho⟩
    · simp [ho] at hr; exact .inl ⟨hr, ho⟩
    · simp [ho] at hr; exact .inr (.inl ⟨hr, n, v, ho⟩)
    · simp [ho] at hr; exact .inr (.inr ⟨hr, hd, ho⟩)
    · rw [ho] at hr
      simp [hcp] at hr

theorem ExecM.retClose_cases {tr : Trace W} {s : State W} (h : ExecM bm c tr s) {o : Nat}
    (hr : .retClose o ∈ tr) :
    ∃ l, opEvs tr o = [.callClose o, .closing o] ++ closePairs o l ++ [.retClose o] := by
  have ho := h.opHist o
  rw [← mem_opEvs (o := o) rfl] at hr
  have hcp := closePairs_not (o := o) (e := Event.retClose (W := W) o) (by simp) (by simp)
  unfold OpHist at ho
  split at ho
  all_goals first
    | (simp_all; done)
    | skip
  · obtain ⟨l, ho⟩ := ho
    rw [ho] at hr
    simp [hcp] at hr
  · obtain ⟨l, ho⟩ := ho
    rw [ho] at hr
    simp [hcp] at hr
  · rcases ho with ho | ⟨n, v, ho⟩ | ⟨ho, hd⟩ | ho
    · simp [ho] at hr
    · simp [ho] at hr
    · simp [ho] at hr
    · exact ho

/-- A call is a `notify` or a `close`, not both. -/
theorem ExecM.notify_not_close {tr : Trace W} {s : State W} (h : ExecM bm c tr s) {o : Nat}
    (h1 : .callNotify o ∈ tr) : .callClose o ∉ tr := by
  have ho := h.opHist o
  rw [← mem_opEvs (o := o) rfl] at h1 ⊢
  have hcp := closePairs_not (o := o) (e := Event.callNotify (W := W) o) (by simp) (by simp)
  unfold OpHist at ho
  split at ho
  all_goals first
    | (simp_all; done)
    | skip
  · obtain ⟨l, ho⟩ := ho
    rw [ho] at h1
    simp [hcp] at h1
  · obtain ⟨l, ho⟩ := ho
    rw [ho] at h1
    simp [hcp] at h1
  · rcases ho with ho | ⟨n, v, ho⟩ | ⟨ho, hd⟩ | ⟨l, ho⟩
    · simp [ho]
    · simp [ho]
    · simp [ho]
    · rw [ho] at h1; simp [hcp] at h1

/-- In what a `close` did, every node taken is followed by its wake-up. -/
theorem closePairs_split {o n : Nat} {l : List (Nat × W)} {X A B : Trace W} (hX : .deq o n ∉ X)
    (h : closePairs o l ++ X = A ++ .deq o n :: B) : ∃ v, .wake o n v ∈ B := by
  induction l generalizing A with
  | nil =>
    exfalso
    apply hX
    simp only [closePairs, List.nil_append] at h
    simp [h]
  | cons x l ih =>
    obtain ⟨m, v⟩ := x
    cases A with
    | nil =>
      simp only [closePairs, List.cons_append, List.nil_append, List.cons.injEq, Event.deq.injEq,
        true_and] at h
      obtain ⟨rfl, h⟩ := h
      exact ⟨v, by simp [← h]⟩
    | cons a A =>
      cases A with
      | nil => simp [closePairs] at h
      | cons b A =>
        simp only [closePairs, List.cons_append, List.cons.injEq] at h
        exact ih h.2.2

/-- The call has taken node `n` and has not woken the waiter yet. -/
def PC.holding (n : Nat) : PC W → Prop
  | .nStore (some (m, _)) | .nUnlock (some (m, _)) | .nWake m _ | .cWake m _ => m = n
  | _ => False

/-- Every node taken by a call that is not about to wake it was woken by that call
afterwards. -/
theorem ExecM.deq_then_wake {tr : Trace W} {s : State W} (h : ExecM bm c tr s) {o n : Nat} {a b : Trace W}
    (htr : tr = a ++ .deq o n :: b) (hp : ¬ (s.pc (.op o)).holding n) :
    ∃ v, .wake o n v ∈ b := by
  have hev : opEvs tr o = opEvs a o ++ .deq o n :: opEvs b o := by
    rw [htr]; simp [opEvs, Event.byOp]
  have hmem : Event.deq o n ∈ opEvs tr o := by rw [hev]; simp
  suffices h1 : ∃ v, .wake o n v ∈ opEvs b o by
    obtain ⟨v, h1⟩ := h1
    exact ⟨v, by rwa [mem_opEvs rfl] at h1⟩
  have ho := h.opHist o
  generalize s.pc (.op o) = p at ho hp
  generalize opEvs tr o = es at ho hev hmem
  have hcl : ∀ l X, Event.deq o n ∉ X → es = [.callClose o, .closing o] ++ closePairs o l ++ X →
      ∃ v, .wake o n v ∈ opEvs b o := by
    intro l X hX he
    rw [hev] at he
    cases ha : opEvs a o with
    | nil => rw [ha] at he; simp at he
    | cons x l1 =>
      rw [ha] at he
      cases l1 with
      | nil => simp at he
      | cons y l1 =>
        simp only [List.cons_append, List.nil_append, List.cons.injEq] at he
        exact closePairs_split hX he.2.2.symm
  unfold OpHist at ho
  split at ho
  all_goals first
    | (rw [ho] at hmem; simp at hmem; done)
    | (rw [ho.1] at hmem; simp at hmem; done)
    | (rw [ho] at hmem; simp [PC.holding] at hmem hp; exact absurd hmem.symm hp)
    | exact ho.elim
    | skip
  · obtain ⟨l, ho⟩ := ho
    exact hcl l [] (by simp) (by simpa using ho)
  · obtain ⟨l, ho⟩ := ho
    exact hcl l _ (by simp; exact fun h => hp h.symm) ho
  · rcases ho with ho | ⟨m, v, ho⟩ | ⟨ho, _⟩ | ⟨l, ho⟩
    · simp [ho] at hmem
    · rw [hev] at ho
      cases ha : opEvs a o with
      | nil => rw [ha] at ho; simp at ho
      | cons x l =>
        rw [ha] at ho
        cases l with
        | nil =>
          simp only [List.cons_append, List.nil_append, List.cons.injEq, Event.deq.injEq] at ho
          obtain ⟨_, ⟨_, rfl⟩, ho⟩ := ho
          exact ⟨v, by simp [ho]⟩
        | cons y l =>
          cases l with
          | nil => simp at ho
          | cons z l =>
            cases l with
            | nil => simp at ho
            | cons z l => simp at ho
    · simp [ho] at hmem
    · exact hcl l _ (by simp) ho

/-- The step of an execution in which an event happens. -/
theorem ExecM.at {tr : Trace W} {s : State W} (h : ExecM bm c tr s) {pre post : Trace W} {e : Event W}
    (htr : tr = pre ++ e :: post) :
    ∃ tr0 s0 s1 act e1 e2, ExecM bm c tr0 s0 ∧ Queue.step c s0 act = some (s1, e1 ++ e :: e2) ∧
      pre = tr0 ++ e1 := by
  induction h generalizing post with
  | init => simp at htr
  | @step tr s s' act evs h hs ih =>
    rcases append_split htr with ⟨post', _, h1⟩ | ⟨e1, h1, h2⟩
    · exact ih h1
    · exact ⟨tr, s, s', act, e1, post, h, by rw [hs, h1], h2⟩
  | stale _ _ _ ih => exact ih htr

theorem ExecM.at_retClose {tr : Trace W} {s : State W} (h : ExecM bm c tr s) {pre post : Trace W} {o : Nat}
    (htr : tr = pre ++ .retClose o :: post) : ∃ s0, ExecM bm c pre s0 ∧ s0.pc (.op o) = .cLoop := by
  obtain ⟨tr0, s0, s1, act, e1, e2, h1, h2, rfl⟩ := h.at htr
  obtain ⟨t, p, st, lk, l, b, rx, rfl, ht, hg⟩ := h1.good h2
  generalize hevs : e1 ++ Event.retClose o :: e2 = evs at hg
  have hm : Event.retClose o ∈ evs := by rw [← hevs]; simp
  cases hg
  case cRet o' hpc hq hst =>
    simp only [List.mem_singleton, Event.retClose.injEq] at hm
    subst hm
    have : e1 = [] := by
      cases e1 with
      | nil => rfl
      | cons x e1 => simp at hevs
    subst this
    exact ⟨s0, by simpa using h1, hpc⟩
  all_goals simp at hm

theorem ExecM.at_wake {tr : Trace W} {s : State W} (h : ExecM bm c tr s) {pre post : Trace W} {o n : Nat}
    {v : W} (htr : tr = pre ++ .wake o n v :: post) :
    ∃ s0, ExecM bm c pre s0 ∧ (s0.pc (.op o) = .nWake n v ∨ s0.pc (.op o) = .cWake n v) := by
  obtain ⟨tr0, s0, s1, act, e1, e2, h1, h2, rfl⟩ := h.at htr
  obtain ⟨t, p, st, lk, l, b, rx, rfl, ht, hg⟩ := h1.good h2
  generalize hevs : e1 ++ Event.wake o n v :: e2 = evs at hg
  have hm : Event.wake o n v ∈ evs := by rw [← hevs]; simp
  cases hg
  case nWake o' n' v' hpc =>
    simp at hm
    obtain ⟨rfl, rfl, rfl⟩ := hm
    have : e1 = [] := by
      cases e1 with
      | nil => rfl
      | cons x e1 =>
        cases e1 with
        | nil => simp at hevs
        | cons y e1 => simp at hevs
    subst this
    exact ⟨s0, by simpa using h1, .inl hpc⟩
  case cWake o' n' v' hpc hst =>
    simp at hm
    obtain ⟨rfl, rfl, rfl⟩ := hm
    have : e1 = [] := by
      cases e1 with
      | nil => rfl
      | cons x e1 => simp at hevs
    subst this
    exact ⟨s0, by simpa using h1, .inr hpc⟩
  all_goals simp at hm

/-- A blocking send that gives up frees its node at once. -/
theorem ExecM.giveUp_free {tr : Trace W} {s : State W} (h : ExecM bm c tr s) {pre post : Trace W}
    {e : Event W} {n : Nat} (htr : tr = pre ++ e :: post) (hg : .giveUp n ∈ pre) (he : e ≠ .free n) :
    .free n ∈ pre := by
  obtain ⟨tr0, s0, s1, act, e1, e2, h1, h2, rfl⟩ := h.at htr
  rcases List.mem_append.1 hg with hg | hg
  · have := h1.nodeLife n
    unfold NodeLife at this
    split at this <;> simp_all
  · obtain ⟨t, p, st, lk, l, b, rx, rfl, ht, hgd⟩ := h1.good h2
    generalize hevs : e1 ++ e :: e2 = evs at hgd
    have hm : Event.giveUp n ∈ evs := by rw [← hevs]; simp [hg]
    cases hgd
    case giveUp m hpc =>
      simp only [List.mem_cons, Event.giveUp.injEq, reduceCtorEq, List.not_mem_nil, or_false] at hm
      subst hm
      cases e1 with
      | nil => simp at hg
      | cons x e1 =>
        cases e1 with
        | nil => simp only [List.cons_append, List.nil_append, List.cons.injEq] at hevs
                 exact absurd hevs.2.1 he
        | cons y e1 => simp at hevs
    all_goals simp at hm

/-! ## Stored notifications, from the trace -/

theorem stored_snoc (tr : Trace W) (e : Event W) : stored (tr ++ [e]) = sstep (stored tr) e := by
  simp [stored]

theorem stored_iff (tr : Trace W) :
    stored tr = true ↔ ∃ a o b, tr = a ++ .store o :: b ∧ ∀ n, .consume n ∉ b := by
  induction tr using snoc_induction
  · simp [stored]
  · rename_i l e ih
    rw [stored_snoc]
    constructor
    · intro h
      by_cases he : ∃ o, e = .store o
      · obtain ⟨o, rfl⟩ := he
        exact ⟨l, o, [], rfl, by simp⟩
      · have hl : stored l = true ∧ ∀ n, e ≠ .consume n := by
          cases e <;> simp_all [sstep]
        obtain ⟨a, o, b, rfl, h1⟩ := ih.1 hl.1
        refine ⟨a, o, b ++ [e], by simp, ?_⟩
        intro n hn
        rcases List.mem_append.1 hn with hn | hn
        · exact h1 n hn
        · simp only [List.mem_singleton] at hn; exact hl.2 n hn.symm
    · rintro ⟨a, o, b, h1, h2⟩
      rcases append_split h1 with ⟨post, h3, h4⟩ | ⟨e1, h3, h4⟩
      · have : stored l = true := ih.2 ⟨a, o, post, h4, fun n hn => h2 n (by simp [h3, hn])⟩
        rw [this]
        have hc : ∀ n, e ≠ .consume n := fun n hn => h2 n (by simp [h3, hn])
        cases e <;> simp_all [sstep]
      · cases e1 with
        | nil => simp at h3; rw [h3.1]; rfl
        | cons x e1 => simp at h3

/-- Who took a node, from the trace. -/
theorem takenBy_some {tr : Trace W} {n o : Nat} (h : takenBy tr n = some o) :
    ∃ a b, tr = a ++ .deq o n :: b ∧ ∀ v, .enq n v ∉ b := by
  induction tr using snoc_induction
  · simp [takenBy] at h
  · rename_i l e ih
    rw [takenBy_append] at h
    simp only [List.foldl_cons, List.foldl_nil] at h
    by_cases he : e = .deq o n
    · subst he; exact ⟨l, [], rfl, by simp⟩
    · have hl : takenBy l n = some o ∧ ∀ v, e ≠ .enq n v := by
        cases e <;> simp_all [tstep]
        case deq o' m =>
          by_cases hm : m = n
          · simp_all
          · simpa [hm] using h
      obtain ⟨a, b, rfl, h1⟩ := ih hl.1
      refine ⟨a, b ++ [e], by simp, fun v hv => ?_⟩
      rcases List.mem_append.1 hv with hv | hv
      · exact h1 v hv
      · simp only [List.mem_singleton] at hv; exact hl.2 v hv.symm

end Thingbuf.Queue
