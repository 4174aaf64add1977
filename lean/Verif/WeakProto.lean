import Verif.ChanSleep
import Verif.ChanLiftProps
import Verif.WeakSleep

/-!
# How the channel uses its ring buffer and its wait queue

Helper lemmas for `WeakProps`. `ExecM.protocol`: the code of the channel follows the `Protocol` of `WeakSleep`, whatever values it reads from the memory of the ring buffer and
of the wait cell, and even if the plain loads of the wait queue are out of date (`ExecM true`).
-/

namespace Thingbuf.Chan

variable {w : Nat} {V W : Type} {c : Config W} {tr : Trace V W} {s : State w V W} {m : Bool}

theorem queue_split {evs : List (Queue.Event W)} {es : List (Api W)} {l r : Trace V W} {e : Queue.Event W}
    (h : l ++ .queue e :: r = evs.map .queue ++ es.map .api) :
    ∃ e1 e2, evs = e1 ++ e :: e2 ∧ l = e1.map .queue ∧ r = e2.map .queue ++ es.map .api := by
  rcases append_split h.symm with ⟨post', h1, h2⟩ | ⟨e1, h1, h2⟩
  · obtain ⟨e1, e2, h3, h4, h5⟩ := List.map_eq_append_iff.1 h2
    obtain ⟨e', e2, rfl, h6, h7⟩ := List.map_eq_cons_iff.1 h5
    cases h6
    exact ⟨e1, e2, h3, h4.symm, by rw [h1, ← h7]⟩
  · have : Ev.queue e ∈ es.map (.api : _ → Ev V W) := by rw [h1]; simp
    simp at this

/-- The step of the wait queue that an event belongs to. -/
theorem ExecM.at_queue (h : ExecM m c tr s) {pre post : Trace V W} {e : Queue.Event W} (htr : tr = pre ++ .queue e :: post) :
    ∃ (tr0 : Trace V W) (s0 : State w V W) (act : Queue.Act W) (s1 : Queue.State W) (e1 e2 : List (Queue.Event W)) (t : State w V W) (es : List (Api W)) (rest : Trace V W),
      ExecM m c tr0 s0 ∧ Queue.step c.queue s0.queue act = some (s1, e1 ++ e :: e2) ∧ QueueMove c s0 act (e1 ++ e :: e2) t es ∧
      ExecM m c (tr0 ++ ((e1 ++ e :: e2).map .queue ++ es.map .api)) { t with queue := s1 } ∧ pre = tr0 ++ e1.map .queue ∧
      post = e2.map .queue ++ es.map .api ++ rest ∧ StepsM m c { t with queue := s1 } rest s := by
  obtain ⟨tr0, s0, s1, l, r, rest, h1, h2, h3, rfl, rfl, h4⟩ := h.at' htr
  generalize hg : l ++ Ev.queue e :: r = evs at h2 h3
  cases h2 with
  | api hm => cases l <;> simp at hg
  | core _ hm =>
    have : Ev.queue e ∈ l ++ Ev.queue e :: r := by simp
    rw [hg] at this; simp at this
  | cell _ hm =>
    have : Ev.queue e ∈ l ++ Ev.queue e :: r := by simp
    rw [hg] at this; simp at this
  | @queue act q1 evs t es hs hm =>
    obtain ⟨e1, e2, rfl, rfl, rfl⟩ := queue_split hg
    exact ⟨tr0, s0, act, q1, e1, e2, t, es, rest, h1, hs, hm, h3, rfl, rfl, h4⟩

theorem snd_keep {f : Nat → SPC} {j k : Nat} {p q : SPC} (hj : f j ≠ q) (hk : f k = q) : upd f j p k = q := by
  rw [upd_apply]
  split
  · rename_i e; subst e; exact absurd hk hj
  · exact hk

theorem snd_was {f : Nat → SPC} {j k : Nat} {p q : SPC} (hp : p ≠ q) (hk : upd f j p k = q) : f k = q := by
  rw [upd_apply] at hk
  split at hk
  · exact absurd hk hp
  · exact hk

/-! ### A call waits after a push that found the channel full -/

theorem ExecM.toStart_full (h : ExecM m c tr s) : ∀ k, s.snd k = .toStart → ∃ a, .core (.ret a .full) ∈ tr := by
  refine ExecM.ind (P := fun tr s => ∀ k, s.snd k = .toStart → ∃ a, Ev.core (.ret a .full) ∈ tr) ?_ (fun _ _ _ _ _ ih _ => ih) (fun _ _ _ _ _ ih _ _ => ih) ?_ ?_ ?_ ?_ tr s h
  · intro k a; cases a
  · intro tr s t e he ih hm k hk
    have : s.snd k = .toStart := by cases hm <;> first | exact hk | exact snd_was (by simp) hk
    obtain ⟨a, ha⟩ := ih k this
    exact ⟨a, by simp [ha]⟩
  · intro tr s act s1 evs r t es he ih h1 hr hm k hk
    have : s.snd k = .toStart ∨ r = some .full := by
      cases hm <;> first | exact .inl hk | exact .inr rfl | exact .inl (snd_was (by simp) hk)
    rcases this with h0 | h0
    · obtain ⟨a, ha⟩ := ih k h0
      exact ⟨a, by simp [ha]⟩
    · have := (core_evs h1).ret' _ (hr.trans h0)
      exact ⟨actOp act, by simp [this]⟩
  · intro tr s act s1 evs t es he ih h1 hm k hk
    have : s.snd k = .toStart := by cases hm <;> first | exact hk | exact snd_was (by simp) hk
    obtain ⟨a, ha⟩ := ih k this
    exact ⟨a, by simp [ha]⟩
  · intro tr s act s1 evs t es he ih h1 hm k hk
    have : s.snd k = .toStart := by cases hm <;> first | exact hk | exact snd_was (by simp) hk
    obtain ⟨a, ha⟩ := ih k this
    exact ⟨a, by simp [ha]⟩

theorem ExecM.fullFirst (h : ExecM m c tr s) {pre post : Trace V W} {n : Nat} {v : W} (htr : tr = pre ++ .queue (.callStart n v) :: post) :
    ∃ a, .core (.ret a .full) ∈ pre := by
  obtain ⟨tr0, s0, act, s1, e1, e2, t, es, rest, h0, h1, hm, h2, rfl, rfl, h3⟩ := h.at_queue htr
  have := ((queue_evs h1).callStart n v).1 (by simp)
  subst this
  generalize hact : Queue.Act.start n v = act at hm
  cases hm <;> cases hact
  obtain ⟨a, ha⟩ := h0.toStart_full n ‹_›
  exact ⟨a, by simp [ha]⟩

/-! ### A call that was notified pushes again -/

/-- Call `n` is about to push, or does so, or has done so. -/
def Pushing (post : Trace V W) (s : State w V W) (n : Nat) : Prop :=
  (∃ att, s.snd n = .retry att) ∨
    ∃ a, .core (.invoke a .push) ∈ post ∧ ((∃ att, s.snd n = .push a att) ∨ ∃ r, .core (.ret a r) ∈ post)

theorem Pushing.mono {post evs : Trace V W} {s t : State w V W} {n : Nat} (h : Pushing post s n) (ht : ∀ p, (p = s.snd n ∧ p.trying) → t.snd n = p) :
    Pushing (post ++ evs) t n := by
  rcases h with ⟨att, h⟩ | ⟨a, h1, ⟨att, h⟩ | ⟨r, h⟩⟩
  · exact .inl ⟨att, ht _ ⟨h.symm, .inr ⟨_, rfl⟩⟩⟩
  · exact .inr ⟨a, by simp [h1], .inl ⟨att, ht _ ⟨h.symm, .inl ⟨_, _, rfl⟩⟩⟩⟩
  · exact .inr ⟨a, by simp [h1], .inr ⟨r, by simp [h]⟩⟩

theorem trying_keep {f : Nat → SPC} {j n : Nat} {q : SPC} (hj : ¬ (f j).trying) : ∀ p, (p = f n ∧ p.trying) → upd f j q n = p := by
  rintro p ⟨rfl, hp⟩
  rw [upd_apply]
  split
  · rename_i e; subst e; exact absurd hp hj
  · rfl

theorem Pushing.steps {pre post : Trace V W} {s0 : State w V W} (h0 : ExecM m c pre s0) (h1 : StepsM m c s0 post s) {n : Nat} {att : Att} (hn : s0.snd n = .retry att) :
    Pushing post s n := by
  refine StepsM.ind h0 (P := fun post s => Pushing post s n) (.inl ⟨att, hn⟩) (fun _ _ _ _ _ ih _ => ih) (fun _ _ _ _ _ ih _ _ => ih) ?_ ?_ ?_ ?_ post s h1
  · intro tr s t e he ih hm he'
    refine ih.mono ?_
    cases hm <;> first | exact fun _ h => h.1.symm | exact trying_keep (not_trying (by simp [*, SPC.over]))
  · intro tr s act s1 evs r t es he ih h1 hr hm he'
    have hev := core_evs h1
    -- moves that end a push
    have fin : ∀ k a att (i : PushIn V) r' q, s.snd k = .push a att → act = i.act a → r = some r' → t.snd = upd s.snd k q →
        Pushing (tr ++ (evs.map .core ++ es.map .api)) { t with core := s1 } n := by
      rintro k a att i r' q hk rfl rfl ht
      by_cases e : n = k
      · subst e
        rcases ih with ⟨att', ih⟩ | ⟨a', h2, ⟨att', ih⟩ | ⟨r, ih⟩⟩
        · rw [hk] at ih; cases ih
        · rw [hk] at ih; cases ih
          have h3 := hev.ret' _ hr
          rw [actOp_push] at h3
          exact .inr ⟨a, by simp [h2], .inr ⟨r', by simp [h3]⟩⟩
        · exact .inr ⟨a', by simp [h2], .inr ⟨r, by simp [ih]⟩⟩
      · refine ih.mono ?_
        rintro p ⟨rfl, -⟩
        show t.snd n = _
        rw [ht]; exact upd_ne _ _ e
    cases hm
    case retry k att a hk =>
      by_cases e : n = k
      · subst e
        refine .inr ⟨a, ?_, .inl ⟨att, upd_self ..⟩⟩
        simp [(hev.inv a .push).2 rfl]
      · refine ih.mono ?_
        rintro p ⟨rfl, -⟩
        exact upd_ne _ _ e
    all_goals first
      | (exact fin _ _ _ _ _ _ ‹_› rfl rfl rfl)
      | (refine ih.mono ?_; exact fun _ h => h.1.symm)
      | (refine ih.mono ?_; exact trying_keep (not_trying (by simp [*, SPC.over])))
  · intro tr s act s1 evs t es he ih h1 hm he'
    refine ih.mono ?_
    cases hm <;> first | exact fun _ h => h.1.symm | exact trying_keep (not_trying (by simp [*, SPC.over]))
  · intro tr s act s1 evs t es he ih h1 hm he'
    refine ih.mono ?_
    cases hm
    case cont k v hk => rcases hk with hk | hk <;> exact trying_keep (Chan.not_trying (by simp [hk]))
    all_goals first | exact fun _ h => h.1.symm | exact trying_keep (Chan.not_trying (by simp [*, SPC.over]))

/-- A call that neither returned nor was cancelled is asleep, when nothing is half way through. -/
theorem ExecM.busy (h : ExecM m c tr s) (hset : Settled tr) (hrx : ∀ pan, .api (.dropRx pan) ∉ tr) {j : Nat}
    (hj : ∃ x wt, Chan.life j (apiOf tr) = [.callSend j x wt]) : j ∈ Queue.queueOf (queueOf tr) ∧ s.snd j = .waiting := by
  obtain ⟨x, wt, hl⟩ := hj
  rcases hset.1 j x wt ((mem_life rfl).1 (by rw [hl]; simp)) with ⟨r, h1⟩ | h1 | h1
  · have := (mem_life (tr := tr) (e := .retSend j r) rfl).2 h1
    rw [hl] at this; simp at this
  · have := (mem_life (tr := tr) (e := .cancelled j) rfl).2 h1
    rw [hl] at this; simp at this
  · exact h.asleep_queued hrx hset.2 h1

theorem ExecM.not_trying (h : ExecM m c tr s) (hset : Settled tr) (hrx : ∀ pan, .api (.dropRx pan) ∉ tr) (j : Nat) : ¬ (s.snd j).trying := by
  intro h1
  have hl := h.life j
  have : ∃ x wt, Chan.life j (apiOf tr) = [.callSend j x wt] := by
    rcases h1 with ⟨_, _, h1⟩ | ⟨_, h1⟩ <;> rw [h1] at hl <;> exact hl
  have := (h.busy hset hrx this).2
  rcases h1 with ⟨_, _, h1⟩ | ⟨_, h1⟩ <;> rw [h1] at this <;> cases this

theorem QueueMove.notified {t : State w V W} {act : Queue.Act W} {evs : List (Queue.Event W)} {es : List (Api W)} (hm : QueueMove c s act evs t es) {n : Nat} {spur : Bool}
    (hno : nodeOk (s.snd n) (s.queue.pc (.node n))) (hact : act = .node n spur) (h5 : nodeRet evs = some (.ret .notified))
    (h4 : NodeNext.startPC (s.queue.pc (.node n)) = true ∨ NodeNext.contPC (s.queue.pc (.node n)) = true) : ∃ att, t.snd n = .retry att := by
  cases hm <;> (try (cases hact; done)) <;> cases hact
  case startNotified => exact ⟨_, upd_self ..⟩
  case contNotified => exact ⟨_, upd_self ..⟩
  case dropEnd r h1 hd =>
    rw [hd] at hno
    generalize s.queue.pc (.node n) = p at hno h4
    cases p <;> simp [nodeOk, NodeNext.startPC, NodeNext.contPC, NodeNext.remPC] at hno h4
  all_goals first
    | (have := ‹nodeRet _ = some (.ret _)›.symm.trans h5; cases this; done)
    | (have := ‹nodeRet _ = none›.symm.trans h5; cases this; done)
    | exact absurd (Option.some.inj (‹nodeRet _ = some _›.symm.trans h5)) (‹∀ r', _ ≠ NodeRes.ret r'› _)

theorem ExecM.retried (h : ExecM m c tr s) (hset : Settled tr) (hrx : ∀ pan, .api (.dropRx pan) ∉ tr) {pre post : Trace V W} {n : Nat}
    (htr : tr = pre ++ .queue (.retStart n .notified) :: post ∨ tr = pre ++ .queue (.retCont n .notified) :: post) :
    ∃ a r, .core (.invoke a .push) ∈ post ∧ .core (.ret a r) ∈ post := by
  have key : ∃ (pre' : Trace V W) (s1 : State w V W) (l rest : Trace V W), ExecM m c pre' s1 ∧ StepsM m c s1 rest s ∧ post = l ++ rest ∧ ∃ att, s1.snd n = .retry att := by
    rcases htr with htr | htr
    · obtain ⟨tr0, s0, act, s1, e1, e2, t, es, rest, h0, h1, hm, h2, rfl, rfl, h3⟩ := h.at_queue htr
      obtain ⟨⟨spur, rfl⟩, h4, h5⟩ := (queue_evs h1).start n .notified (by simp)
      refine ⟨_, _, _, rest, h2, h3, rfl, ?_⟩
      exact (hm.notified (h0.nodesOk n) rfl h5 (.inl h4))
    · obtain ⟨tr0, s0, act, s1, e1, e2, t, es, rest, h0, h1, hm, h2, rfl, rfl, h3⟩ := h.at_queue htr
      obtain ⟨⟨spur, rfl⟩, h4, h5⟩ := (queue_evs h1).cont n .notified (by simp)
      refine ⟨_, _, _, rest, h2, h3, rfl, ?_⟩
      exact (hm.notified (h0.nodesOk n) rfl h5 (.inr h4))
  obtain ⟨pre', s1, l, rest, h1, h2, rfl, att, h3⟩ := key
  rcases Pushing.steps h1 h2 h3 with ⟨att', h4⟩ | ⟨a, h4, ⟨att', h5⟩ | ⟨r, h5⟩⟩
  · exact absurd (.inr ⟨_, h4⟩) (h.not_trying hset hrx n)
  · exact absurd (.inl ⟨_, _, h5⟩) (h.not_trying hset hrx n)
  · exact ⟨a, r, by simp [h4], by simp [h5]⟩

/-! ### A call that was taken out of the wait queue learns of it -/

theorem CoreMove.conting {t : State w V W} {act} {r} {es : List (Api W)} (hm : CoreMove c s act r t es) {k : Nat} (h : s.snd k = .waiting ∨ s.snd k = .conting) :
    t.snd k = s.snd k := by
  cases hm <;> first | rfl | (refine upd_ne _ _ ?_; rintro rfl; simp [*] at h)

theorem CellMove.conting {t : State w V W} {act} {r} {es : List (Api W)} (hm : CellMove c s act r t es) {k : Nat} (h : s.snd k = .waiting ∨ s.snd k = .conting) :
    t.snd k = s.snd k := by
  cases hm <;> first | rfl | (refine upd_ne _ _ ?_; rintro rfl; simp [*] at h)

theorem ApiMove.conting {t : State w V W} {e : Api W} (hm : ApiMove c s t e) {k : Nat} (h : s.snd k = .waiting ∨ s.snd k = .conting) :
    t.snd k = s.snd k := by
  cases hm <;> first | rfl | (refine upd_ne _ _ ?_; rintro rfl; simp [*] at h)

theorem QueueMove.conting {t : State w V W} {act} {evs} {es : List (Api W)} (hm : QueueMove c s act evs t es) {k : Nat} (h : s.snd k = .waiting ∨ s.snd k = .conting) :
    t.snd k = s.snd k ∨ t.snd k = .conting ∨ .cancel k ∈ es ∨ .retSend k .timeout ∈ es ∨
      ∃ spur r, act = .node k spur ∧ s.snd k = .conting ∧ nodeRet evs = some r := by
  cases hm
  all_goals first
    | exact .inl rfl
    | (rename_i j _ _
       by_cases e : k = j
       · subst e; first | (exact .inr (.inl (upd_self ..))) | (simp; done) | (simp [*] at h; done) | (exact .inr (.inr (.inr (.inr ⟨_, _, rfl, ‹_›, ‹_›⟩))))
       · exact .inl (upd_ne _ _ e))
    | (rename_i j _ _ _
       by_cases e : k = j
       · subst e; first | (exact .inr (.inl (upd_self ..))) | (simp; done) | (simp [*] at h; done) | (exact .inr (.inr (.inr (.inr ⟨_, _, rfl, ‹_›, ‹_›⟩))))
       · exact .inl (upd_ne _ _ e))
    | (rename_i j _ _ _ _
       by_cases e : k = j
       · subst e; first | (exact .inr (.inl (upd_self ..))) | (simp; done) | (simp [*] at h; done) | (exact .inr (.inr (.inr (.inr ⟨_, _, rfl, ‹_›, ‹_›⟩))))
       · exact .inl (upd_ne _ _ e))
    | (rename_i j _ _ _ _ _
       by_cases e : k = j
       · subst e; first | (exact .inr (.inl (upd_self ..))) | (simp; done) | (simp [*] at h; done) | (exact .inr (.inr (.inr (.inr ⟨_, _, rfl, ‹_›, ‹_›⟩))))
       · exact .inl (upd_ne _ _ e))

/-- Call `n` was taken out of the wait queue, and has learned of it, or will. -/
def Taken (post : Trace V W) (s : State w V W) (n : Nat) : Prop :=
  .queue (.retCont n .notified) ∈ post ∨ ((s.snd n = .waiting ∨ s.snd n = .conting) ∧ ∀ v, .queue (.enq n v) ∉ post)

theorem Taken.mono {post evs : Trace V W} {s t : State w V W} {n : Nat} (h : Taken post s n)
    (ht : s.snd n = .waiting ∨ s.snd n = .conting → t.snd n = .waiting ∨ t.snd n = .conting) (he : s.snd n = .waiting ∨ s.snd n = .conting → ∀ v, .queue (.enq n v) ∉ evs) :
    Taken (post ++ evs) t n := by
  rcases h with h | ⟨h1, h2⟩
  · exact .inl (by simp [h])
  · exact .inr ⟨ht h1, fun v hv => (List.mem_append.1 hv).elim (h2 v) (he h1 v)⟩

theorem Taken.steps {pre post : Trace V W} {s0 : State w V W} (h0 : ExecM m c pre s0) (h1 : StepsM m c s0 post s) {n o : Nat}
    (hn : s0.snd n = .waiting ∨ s0.snd n = .conting) (hq : n ∉ Queue.queueOf (queueOf pre)) (hrx : ∀ pan, .api (.dropRx pan) ∉ pre ++ post) (hca : .api (.cancel n) ∉ pre ++ post)
    (hto : .api (.retSend n .timeout) ∉ pre ++ post) : Taken post s n := by
  refine StepsM.ind h0 (P := fun post s => (∀ pan, .api (.dropRx pan) ∉ pre ++ post) → .api (.cancel n) ∉ pre ++ post → .api (.retSend n .timeout) ∉ pre ++ post → Taken post s n)
    (fun _ _ _ => .inr ⟨hn, by simp⟩) (fun _ _ _ _ _ ih _ => ih) (fun _ _ _ _ _ ih _ _ => ih) ?_ ?_ ?_ ?_ post s h1 hrx hca hto
  · intro tr s t e he ih hm he' h2 h3 h4
    refine (ih (fun p hp => h2 p (by rw [← List.append_assoc]; exact List.mem_append_left _ hp)) (fun hp => h3 (by rw [← List.append_assoc]; exact List.mem_append_left _ hp))
      (fun hp => h4 (by rw [← List.append_assoc]; exact List.mem_append_left _ hp))).mono (fun h => by rw [hm.conting h]; exact h) (by simp)
  · intro tr s act s1 evs r t es he ih h1 hr hm he' h2 h3 h4
    refine (ih (fun p hp => h2 p (by rw [← List.append_assoc]; exact List.mem_append_left _ hp)) (fun hp => h3 (by rw [← List.append_assoc]; exact List.mem_append_left _ hp))
      (fun hp => h4 (by rw [← List.append_assoc]; exact List.mem_append_left _ hp))).mono (fun h => by show t.snd n = _ ∨ t.snd n = _; rw [hm.conting h]; exact h) (by simp)
  · intro tr s act s1 evs t es he ih h1 hm he' h2 h3 h4
    refine (ih (fun p hp => h2 p (by rw [← List.append_assoc]; exact List.mem_append_left _ hp)) (fun hp => h3 (by rw [← List.append_assoc]; exact List.mem_append_left _ hp))
      (fun hp => h4 (by rw [← List.append_assoc]; exact List.mem_append_left _ hp))).mono (fun h => by show t.snd n = _ ∨ t.snd n = _; rw [hm.conting h]; exact h) (by simp)
  · intro tr s act s1 evs t es he ih h1 hm he' h2 h3 h4
    have ih := ih (fun p hp => h2 p (by rw [← List.append_assoc]; exact List.mem_append_left _ hp)) (fun hp => h3 (by rw [← List.append_assoc]; exact List.mem_append_left _ hp))
      (fun hp => h4 (by rw [← List.append_assoc]; exact List.mem_append_left _ hp))
    have hev := queue_evs h1
    have hno := he.nodesOk n
    have henq : s.snd n = .waiting ∨ s.snd n = .conting → ∀ v, .enq n v ∉ evs := by
      intro h5 v hv
      obtain ⟨⟨spur, rfl⟩, h6⟩ := hev.enq n v hv
      have h6 : NodeNext.startPC (s.queue.pc (.node n)) = true := h6
      generalize s.queue.pc (.node n) = p at hno h6
      rcases h5 with h5 | h5 <;> rw [h5] at hno <;> cases p <;> simp [nodeOk, NodeNext.startPC, NodeNext.contPC] at hno h6
    have henq' : s.snd n = .waiting ∨ s.snd n = .conting → ∀ v, .queue (.enq n v) ∉ (evs.map .queue ++ es.map .api : Trace V W) := fun h5 v => by simpa using henq h5 v
    rcases ih with ih | ⟨h5, h6⟩
    · exact .inl (by simp [ih])
    · rcases hm.conting h5 with h7 | h7 | h7 | h7 | ⟨spur, r, rfl, h7, h8⟩
      · exact Taken.mono (.inr ⟨h5, h6⟩) (fun h => by show t.snd n = _ ∨ t.snd n = _; rw [h7]; exact h) henq'
      · exact Taken.mono (.inr ⟨h5, h6⟩) (fun h => .inr h7) henq'
      · exact absurd (by simp [h7]) h3
      · exact absurd (by simp [h7]) h4
      · rw [h7] at hno
        obtain ⟨r', rfl⟩ := he.node_ret h1 (.inr h7) h8
        have h9 := hev.cont' n spur r' rfl hno h8
        obtain ⟨x, y, hxy⟩ := List.append_of_mem h9
        have hok := he'.queue.evOk
        have e : queueOf (pre ++ tr ++ (evs.map .queue ++ es.map .api)) = queueOf (pre ++ tr) ++ x ++ .retCont n r' :: y := by
          simp [hxy]
        have hev' := hok _ _ _ e
        cases r' with
        | notified => exact .inl (by simp [h9])
        | closed =>
          obtain ⟨-, o', -, h10⟩ := hev'
          have h11 : .queue (.callClose o') ∈ pre ++ tr ++ (evs.map .queue ++ es.map .api) := mem_queueOf.1 (by rw [e]; exact List.mem_append_left _ h10)
          obtain ⟨pan, hp⟩ := he'.rxInv.call o' h11
          exact absurd (by rw [← List.append_assoc]; exact hp) (h2 pan)
        | wait =>
          exfalso
          obtain ⟨a, v, b, h10, h11⟩ := (Queue.mem_queueOf (hok.prefix ⟨_, e.symm⟩)).1 hev'.1
          have hin : ∀ (z : Queue.Trace W), .enq n v ∈ z → z = queueOf tr ++ x → False := by
            rintro z hz rfl
            rcases List.mem_append.1 hz with hz | hz
            · exact h6 v (mem_queueOf.1 hz)
            · exact henq (.inr h7) v (by rw [hxy]; simp [hz])
          rw [queueOf_append, List.append_assoc] at h10
          rcases append_split h10 with ⟨post', h12, h13⟩ | ⟨e1, h12, h13⟩
          · refine hq ((Queue.mem_queueOf (hok.prefix ⟨queueOf (tr ++ (evs.map .queue ++ es.map .api)), by simp⟩)).2 ⟨a, v, post', h13, fun e he => h11 e (by rw [h12]; simp [he])⟩)
          · exact hin _ (by rw [h12]; simp) rfl

theorem ExecM.heard (h : ExecM m c tr s) (hset : Settled tr) (hrx : ∀ pan, .api (.dropRx pan) ∉ tr) (hca : ∀ k, .api (.cancel k) ∉ tr) (hto : ∀ k, .api (.retSend k .timeout) ∉ tr)
    {pre post : Trace V W} {o n : Nat} (htr : tr = pre ++ .queue (.deq o n) :: post) : .queue (.retCont n .notified) ∈ post := by
  obtain ⟨tr0, s0, act, s1, e1, e2, t, es, rest, h0, h1, hm, h2, rfl, rfl, h3⟩ := h.at_queue htr
  obtain ⟨spur, rfl⟩ := (queue_evs h1).deq o n (by simp)
  have hok := h2.queue.evOk
  have e : queueOf (tr0 ++ ((e1 ++ .deq o n :: e2).map .queue ++ es.map .api)) = queueOf tr0 ++ e1 ++ .deq o n :: e2 := by simp
  have henq : ∀ v, .enq n v ∉ e1 ++ .deq o n :: e2 := fun v hv => by
    obtain ⟨⟨_, h4⟩, -⟩ := (queue_evs h1).enq n v hv
    cases h4
  -- the node was in the queue
  have hin : n ∈ Queue.queueOf (queueOf tr0 ++ e1) := by
    obtain ⟨⟨q', h4⟩, -⟩ := hok _ _ _ e
    rw [h4]; simp
  obtain ⟨a, v, b, h4, h5⟩ := (Queue.mem_queueOf (hok.prefix ⟨_, e.symm⟩)).1 hin
  have hin0 : n ∈ Queue.queueOf (queueOf tr0) := by
    rcases append_split h4 with ⟨post', h6, h7⟩ | ⟨l, h6, h7⟩
    · exact (Queue.mem_queueOf h0.queue.evOk).2 ⟨a, v, post', h7, fun e he => h5 e (by rw [h6]; simp [he])⟩
    · exact absurd (by rw [h6]; simp) (henq v)
  have hsn : s0.snd n = .waiting ∨ s0.snd n = .conting := by
    rcases h0.queued_call hin0 with h6 | h6 | h6 | h6
    · exact .inl h6
    · exact .inr h6
    · have h7 := h0.life n
      rw [h6] at h7
      obtain ⟨x, wt, h7⟩ := h7
      exact absurd (by rw [htr]; simp [(mem_life (tr := tr0) (e := .cancel n) rfl).1 (by rw [h7]; simp)]) (hca n)
    · exact absurd (by rw [htr]; simp [h6]) (hto n)
  have hts : t.snd n = s0.snd n := by
    generalize hact : Queue.Act.op o spur = act at hm
    cases hm <;> first | rfl | (cases hact; done)
  have hout : n ∉ Queue.queueOf (queueOf (tr0 ++ ((e1 ++ .deq o n :: e2).map .queue ++ es.map .api))) := by
    intro hin'
    obtain ⟨a, v, b, h6, h7⟩ := (Queue.mem_queueOf hok).1 hin'
    rw [e, List.append_assoc] at h6
    rcases append_split h6 with ⟨post', h8, h9⟩ | ⟨l, h8, h9⟩
    · exact h7 (.deq o n) (by rw [h8]; simp) (.inl ⟨o, rfl⟩)
    · exact henq v (by rw [h8]; simp)
  have htr' : tr = (tr0 ++ ((e1 ++ .deq o n :: e2).map .queue ++ es.map .api)) ++ rest := by rw [htr]; simp
  have := Taken.steps (o := o) h2 h3 (n := n) (by show t.snd n = _ ∨ t.snd n = _; rw [hts]; exact hsn) hout (by rw [← htr']; exact hrx) (by rw [← htr']; exact hca n)
    (by rw [← htr']; exact hto n)
  rcases this with h6 | ⟨h6, h7⟩
  · simp [h6]
  · exfalso
    have hl := h.life n
    have : ∃ x wt, Chan.life n (apiOf tr) = [.callSend n x wt] := by
      rcases h6 with h6 | h6 <;> rw [h6] at hl <;> exact hl
    have hb := (h.busy hset hrx this).1
    obtain ⟨a, v, b, h8, h9⟩ := (Queue.mem_queueOf h.queue.evOk).1 hb
    rw [htr', queueOf_append] at h8
    rcases append_split h8 with ⟨post', h10, h11⟩ | ⟨l, h10, h11⟩
    · exact hout ((Queue.mem_queueOf hok).2 ⟨a, v, post', h11, fun e he => h9 e (by rw [h10]; simp [he])⟩)
    · exact h7 v (mem_queueOf.1 (by rw [h10]; simp))

/-! ### All of it -/

theorem ExecM.drop_releases (h : ExecM m c tr s) {b : OpId} (hb : .api (.dropRecv b) ∈ tr) : Released (coreOf tr) b := by
  obtain ⟨pre, post, htr⟩ := List.append_of_mem hb
  obtain ⟨tr0, l, s0, s1, h0, hl, h1, h2, h3⟩ := h.at_api htr (by simp)
  cases h1 with
  | api hm hl hr hs => cases hm
  | @core act q1 evs t es1 es2 h1 hm hl' hr hs =>
    generalize hes : es1 ++ Api.dropRecv b :: es2 = es at hm
    generalize hret : coreRet _ = ret at hm
    have : Api.dropRecv b ∈ es := by rw [← hes]; simp
    cases hm <;> simp at this
    subst this
    rename_i hp
    obtain ⟨i, v, h4⟩ := (core_evs h1).dropPop b rfl (by rw [actOp_drop]; exact h0.coreOwns.sat (.ref b) b .popHeld (by simp [coreClaim, claimOf, hp, refCore]))
    exact ⟨i, v, mem_coreOf.2 (by rw [htr, hl, hl', h4]; simp)⟩
  | cell es1 es2 h1 hm hl hr hs =>
    generalize hes : es1 ++ Api.dropRecv b :: es2 = es at hm
    have : Api.dropRecv b ∈ es := by rw [← hes]; simp
    cases hm <;> simp at this
  | queue es1 es2 h1 hm hl hr hs =>
    generalize hes : es1 ++ Api.dropRecv b :: es2 = es at hm
    have : Api.dropRecv b ∈ es := by rw [← hes]; simp
    cases hm <;> simp at this

section
variable {mm : Prop} {cap : Nat} {qc : Queue.Config W} {l : Queue.LState W}
variable (h : ExecM m c tr s) (hset : Settled tr) (hrx : ∀ pan, .api (.dropRx pan) ∉ tr) (hca : ∀ k, .api (.cancel k) ∉ tr) (hto : ∀ k, .api (.retSend k .timeout) ∉ tr)
  (hf : Facts mm w cap (coreOf tr)) (hl : Queue.LExec qc (queueOf tr) l) (h1 : Queue.OneAfterTheOther l (queueOf tr)) {k : Nat} (hk : Asleep tr k)
include h hset hrx hca hto hf hl h1 hk

theorem ExecM.protocol : Protocol tr where
  fullFirst _ _ _ _ htr := h.fullFirst htr
  retry _ _ _ htr := h.retried hset hrx htr
  notifies pre b i v post htr := by
    obtain ⟨post', rfl⟩ := h.release_at htr
    obtain ⟨o, ho⟩ := h.recv_notifies hset.2 (pre := pre ++ [.core (.release b i v)]) (post := post') (b := b) (by rw [htr]; simp)
    exact ⟨o, by simp [ho]⟩
  ended o ho := by
    have ho' : .callNotify o ∈ Queue.opEvs (queueOf tr) o := (Queue.mem_opEvs rfl).2 (mem_queueOf.2 ho)
    have key : ∀ b, .retNotify o b ∈ Queue.opEvs (queueOf tr) o → ∃ b, Ev.queue (.retNotify o b) ∈ tr := fun b hb => ⟨b, mem_queueOf.1 ((Queue.mem_opEvs rfl).1 hb)⟩
    rcases h.notify_over hrx hset.2 (List.ne_nil_of_mem ho') with h2 | ⟨n, v, h2⟩ | ⟨h2, -⟩ | h2
    · exact key false (by rw [h2]; simp)
    · exact key true (by rw [h2]; simp)
    · exact key false (by rw [h2]; simp)
    · exact absurd ((Queue.mem_opEvs (o := o) rfl).1 (show .assertFailed (.op o) ∈ _ by rw [h2]; simp)) (Queue.C62_no_assertion hl h1 _)
  heard _ _ _ _ htr := h.heard hset hrx hca hto htr
  closeCore a ha := by
    obtain ⟨x, y, hxy⟩ := List.append_of_mem (mem_coreOf.2 ha)
    have h2 : Event.invoke a (.close false) ∈ coreOf tr := by
      have := hf.evOk hxy
      rw [hxy]
      simp only [EvOk] at this
      simp [this]
    have h3 := h.clInv.hist
    have h4 := (h.asleep_queued hrx hset.2 hk).2
    rw [h.hinv.closer.2 (h.active_handles (k := k) (by rw [h4]; rfl))] at h3
    rcases h3.2 _ _ (mem_coreOf.1 h2) with h5 | h5
    · cases h5
    · exact hrx _ h5
  closeQueue o ho := by
    obtain ⟨pan, h2⟩ := h.rxInv.call o (mem_queueOf.1 (h.queue.closing_called (mem_queueOf.2 ho)))
    exact hrx pan h2

theorem ExecM.has_message : ∃ a, InChannel tr a := by
  obtain ⟨i, a, h2, h3⟩ := (h.protocol hset hrx hca hto hf hl h1 hk).has_message hf hl h1 (h.asleep_queued hrx hset.2 hk).1
  refine ⟨a, i, h2, fun b hb hd => ?_⟩
  rw [h.received] at hb
  exact h3 b hb (h.drop_releases hd)

end

end Thingbuf.Chan
