import Verif.ChanAfter
import Verif.ChanDemo

/-!
# Properties of the channel: dropping the `Receiver`
-/

namespace Thingbuf.Chan

variable {w : Nat} {V W : Type} {c : Config W} {tr : Trace V W} {s : State w V W}

/-! ### C33 -/

/-- A send call returns `Closed` only after the drop of the `Receiver` has begun. On any memory. -/
theorem ExecM.ret_closed {m : Bool} {mm : Prop} (h : ExecM m c tr s) {k : Nat} {pre post : Trace V W} (htr : tr = pre ++ .api (.retSend k .closed) :: post)
    (hf : Facts mm w c.cap (coreOf (pre ++ [.api (.retSend k .closed)]))) :
    ∃ pan, .api (.dropRx pan) ∈ pre := by
  obtain ⟨tr0, l, s0, s1, h0, hl, h1, h2, h3⟩ := h.at_api htr (by simp)
  have hq : ∀ j act q1 evs, Queue.step c.queue s0.queue act = some (q1, evs) → l = evs.map .queue →
      (.retStart j .closed ∈ evs ∨ .retCont j .closed ∈ evs) → ∃ pan, .api (.dropRx pan) ∈ pre := by
    intro j act q1 evs h1 hl' hev
    have hx : ∀ e, (e = .retStart j .closed ∨ e = .retCont j .closed) → e ∈ evs → ∃ o, .queue (.callClose o) ∈ pre ++ [.api (.retSend k .closed)] := by
      intro e he hm
      obtain ⟨x, y, hxy⟩ := List.append_of_mem (show e ∈ queueOf pre by rw [hl, hl']; simp [hm])
      have hq := (show Queue.ExecM m c.queue (queueOf pre) s1.queue by simpa using h2.queue)
      have := hq.evOk _ _ _ hxy
      rcases he with rfl | rfl
      · obtain ⟨o, ho⟩ := this
        refine ⟨o, ?_⟩
        rw [← mem_queueOf]
        simp only [queueOf_append]
        exact List.mem_append_left _ (hq.closing_called (by rw [hxy]; simp [ho]))
      · obtain ⟨-, o, -, ho⟩ := this
        refine ⟨o, ?_⟩
        rw [← mem_queueOf]
        simp only [queueOf_append]
        exact List.mem_append_left _ (by rw [hxy]; simp [ho])
    obtain ⟨o, ho⟩ : ∃ o, .queue (.callClose o) ∈ pre ++ [.api (.retSend k .closed)] := hev.elim (hx _ (.inl rfl)) (hx _ (.inr rfl))
    obtain ⟨pan, hp⟩ := h2.rxInv.call o ho
    exact ⟨pan, by simpa using hp⟩
  cases h1 with
  | api hm hl hr hs => cases hm
  | core es1 es2 h1 hm hl' hr hs =>
    generalize hes : es1 ++ Api.retSend k .closed :: es2 = es at hm
    generalize hret : coreRet _ = ret at hm
    have hmem : Api.retSend k .closed ∈ es := by rw [← hes]; simp
    have hev := core_evs h1
    cases hm <;> simp at hmem
    case pushClosed j a att i hp =>
      subst hmem
      have ha := h0.active_handles (k := k) (by rw [hp]; rfl)
      have hx := hev.ret' _ hret
      obtain ⟨x, y, hxy⟩ := List.append_of_mem (show Event.ret _ Ret.closed ∈ coreOf (pre ++ [.api (.retSend k .closed)]) by
        rw [mem_coreOf, hl, hl']
        exact List.mem_append_left _ (List.mem_append_right _ (List.mem_append_left _ (List.mem_map_of_mem hx))))
      have hcl : Closed (coreOf (pre ++ [.api (.retSend k .closed)])) := by
        have := hf.evOk hxy
        obtain ⟨_, _, _, _, ⟨b, hb⟩, _⟩ := this
        exact ⟨b, by rw [hxy]; simp [hb]⟩
      have hne : s1.handles ≠ [] := by rw [hs]; exact ha
      exact ⟨false, by simpa using (h2.closed_by hf hcl).resolve_right (h2.no_lastDrop hne false)⟩
  | cell es1 es2 h1 hm hl hr hs =>
    generalize hes : es1 ++ Api.retSend k .closed :: es2 = es at hm
    have : Api.retSend k .closed ∈ es := by rw [← hes]; simp
    cases hm <;> simp at this
  | @queue act q1 evs t es1 es2 h1 hm hl' hr hs =>
    generalize hes : es1 ++ Api.retSend k .closed :: es2 = es at hm
    have hmem : Api.retSend k .closed ∈ es := by rw [← hes]; simp
    have hev := queue_evs h1
    have hn := h0.nodesOk k
    have hl2 : es1 = [] := by
      cases hm <;> simp at hmem <;> (cases es1 <;> simp_all)
    rw [hl2] at hl'
    cases hm <;> simp at hmem
    · subst hmem
      rename_i hr hj
      rw [hj] at hn
      exact hq _ _ _ _ h1 (by simpa using hl') (.inl (hev.start' _ _ _ rfl hn hr))
    · subst hmem
      rename_i hr hj
      rw [hj] at hn
      exact hq _ _ _ _ h1 (by simpa using hl') (.inr (hev.cont' _ _ _ rfl hn hr))

/-- **C33** A send call returns `Closed` only after the drop of the `Receiver` has begun. -/
theorem C33_closed_truthful (h : Run c tr s) {k : Nat} {pre post : Trace V W} (htr : tr = pre ++ .api (.retSend k .closed) :: post) :
    ∃ pan, .api (.dropRx pan) ∈ pre := by
  obtain ⟨tr0, l, s0, s1, h0, hl, h1, h2, h3⟩ := h.exec.at_api htr (by simp)
  have hr2 : Run c (pre ++ [.api (.retSend k .closed)]) s1 := Run.before (l := post) (by rw [htr] at h; simpa using h) h2
  exact h.exec.ret_closed htr hr2.core.facts

theorem LifeOk.cancelled {k : Nat} {p : SPC} {l : List (Api W)} (h : LifeOk k p l) (hm : .cancel k ∈ l) (r : SendRes) : .retSend k r ∉ l := by
  cases p <;> simp only [LifeOk] at h
  case off => subst h; simp
  case done =>
    obtain ⟨_, _, ⟨r, hr, h⟩ | h | ⟨a, h⟩⟩ := h <;> subst h <;> simp at hm ⊢
  case toNotify | notifying => obtain ⟨_, _, _, h⟩ := h; subst h; simp at hm
  all_goals (obtain ⟨_, _, h⟩ := h; subst h; simp at hm ⊢)

theorem LifeOk.nil {k : Nat} {p : SPC} (h : LifeOk (W := W) k p []) : p = .off := by
  cases p <;> simp [LifeOk] at h ⊢

theorem LifeOk.tail {k : Nat} {p : SPC} {e : Api W} {l : List (Api W)} (h : LifeOk k p (e :: l)) {x : Nat} {b : Bool} : .callSend k x b ∉ l := by
  intro hm
  cases p <;> simp only [LifeOk] at h
  case off => cases h
  case done =>
    obtain ⟨_, _, ⟨r, hr, h⟩ | h | ⟨a, h⟩⟩ := h <;> (rw [(List.cons.inj h).2] at hm; simp at hm)
  case toNotify | notifying => obtain ⟨_, _, _, h⟩ := h; rw [(List.cons.inj h).2] at hm; simp at hm
  all_goals (obtain ⟨_, _, h⟩ := h; rw [(List.cons.inj h).2] at hm; simp at hm)

theorem LifeOk.called {k : Nat} {p : SPC} {l1 l2 : List (Api W)} (h : LifeOk k p (l1 ++ l2)) {x : Nat} {b : Bool}
    (hc : .callSend k x b ∈ l2) : l1 = [] := by
  cases l1 with
  | nil => rfl
  | cons e l1 => exact absurd (List.mem_append_right _ hc) (LifeOk.tail (l := l1 ++ l2) h)

theorem ExecM.sleep_called {m : Bool} (h : ExecM m c tr s) {k : Nat} (hs : .api (.sleep k) ∈ tr) : ∃ x b, .api (.callSend k x b) ∈ tr := by
  obtain ⟨pre, post, htr⟩ := List.append_of_mem hs
  obtain ⟨tr0, l, s0, s1, h0, hl, h1, h2, h3⟩ := h.at_api htr (by simp)
  have hw := h2.asleep rfl (by simp) (by simp) (by simp)
  have hlife := h2.life k
  rw [hw] at hlife
  obtain ⟨x, b, hlife⟩ := hlife
  have := (mem_life (k := k) (tr := pre ++ [.api (.sleep k)]) (e := .callSend k x b) rfl).1 (by rw [hlife]; simp)
  exact ⟨x, b, by rw [htr]; simp at this; simp [this]⟩

/-- A call that is made later has not begun. -/
theorem ExecM.not_called {m : Bool} (h : ExecM m c tr s) {pre post : Trace V W} {s0 : State w V W} (h0 : ExecM m c pre s0) (htr : tr = pre ++ post) {k x : Nat} {b : Bool}
    (hk : .api (.callSend k x b) ∈ post) : s0.snd k = .off := by
  have h1 := h.life k
  have h2 := h0.life k
  rw [htr, apiOf_append, life_append] at h1
  rw [h1.called (x := x) (b := b)] at h2
  · exact h2.nil
  · rw [mem_life rfl]; exact hk

/-- **C33** (partial: the `Receiver` is not dropped by a panicking thread) After the drop of the `Receiver` is
over, every `send`, `send_ref`, `try_send` and `try_send_ref` that is called returns `Closed` and does not wait. -/
theorem C33_closed_after_drop_partial (h : Run c tr s) {pre post : Trace V W} (htr : tr = pre ++ .api .rxDropped :: post)
    (hp : .api (.dropRx true) ∉ tr) {k x : Nat} {wait : Bool} (hk : .api (.callSend k x wait) ∈ post) :
    (∀ r, .api (.retSend k r) ∈ tr → r = .closed) ∧ .api (.sleep k) ∉ tr := by
  obtain ⟨tr0, l, s0, s1, h0, hl, h1, h2, h3⟩ := h.exec.at_api htr (by simp)
  have hh : Run c ((pre ++ [.api .rxDropped]) ++ post) s := by rw [htr] at h; simpa using h
  have hr2 : Run c (pre ++ [.api .rxDropped]) s1 := Run.before hh h2
  have hcl := (hr2.rx_gone (h2.rxInv.gone (by simp)) (fun hm => hp (by rw [htr]; simp at hm; simp [hm]))).1
  have hoff := h.exec.not_called h2 (by rw [htr]; simp) hk
  have hlate := Run.after_close (f := true) h2 h3 hh hcl (k := k) (by
    rw [hoff]; exact ⟨⟨by simp, by simp, by simp [SPC.over]⟩, by simp [SPC.fresh], by simp⟩)
  have hlife := h2.life k
  rw [hoff] at hlife
  have hno : ∀ e : Api W, callOf e = some k → .api e ∉ pre := by
    intro e he hm
    have : e ∈ life k (apiOf (pre ++ [.api .rxDropped] : Trace V W)) := (mem_life he).2 (by simp [hm])
    rw [show life k _ = [] from hlife] at this
    cases this
  rw [htr]
  refine ⟨fun r hr => ?_, fun hr => ?_⟩
  · simp at hr
    have hr := hr.resolve_left (hno _ rfl)
    exact (hlate.ret r hr).resolve_right (by rintro rfl; exact hlate.intime rfl hr)
  · simp at hr
    rcases hr with hr | hr
    · obtain ⟨x, b, hc⟩ := h2.sleep_called (k := k) (by simp [hr])
      exact hno (.callSend k x b) rfl (by simpa using hc)
    · exact (hlate.fresh rfl).2 hr

/-- **C33** (partial: as above) A send call that waits, and is not polled again before the drop of the `Receiver` is over, returns
nothing but `Closed`, or `Timeout` if it is a `send_timeout`. -/
theorem C33_waiting_gets_closed_partial (h : Run c tr s) {pre mid post : Trace V W} {k : Nat}
    (htr : tr = pre ++ .api (.sleep k) :: mid ++ .api .rxDropped :: post) (hp : .api (.dropRx true) ∉ tr)
    (hc : ∀ v, .queue (.callCont k v) ∉ mid) {r : SendRes} (hr : .api (.retSend k r) ∈ tr) :
    r = .closed ∨ (r = .timeout ∧ c.blocking = true) := by
  obtain ⟨tr0, l, s0, s1, h0, hl, h1, h2, h3⟩ := h.exec.at_api htr (by simp)
  have hh : Run c ((pre ++ .api (.sleep k) :: mid ++ [.api .rxDropped]) ++ post) s := by rw [htr] at h; simpa using h
  have hr2 : Run c (pre ++ .api (.sleep k) :: mid ++ [.api .rxDropped]) s1 := Run.before hh h2
  have hcl := (hr2.rx_gone (h2.rxInv.gone (by simp)) (fun hm => hp (by rw [htr]; simp at hm ⊢; rcases hm with hm | hm <;> simp [hm]))).1
  by_cases hcan : .api (.cancel k) ∈ mid
  · have h4 := (mem_life (k := k) rfl).2 hr
    have h5 := (mem_life (k := k) (tr := tr) (e := .cancel k) rfl).2 (by rw [htr]; simp [hcan])
    exact absurd h4 ((h.exec.life k).cancelled h5 r)
  have hbl : .api (.retSend k .timeout) ∈ tr → c.blocking = true := fun ht => by
    cases hb : c.blocking
    · exact absurd ht (h.exec.no_timeout hb k)
    · rfl
  by_cases hto : .api (.retSend k .timeout) ∈ mid
  · have hto : .api (.retSend k .timeout) ∈ tr := by rw [htr]; simp [hto]
    exact .inr ⟨(h.exec.life k).ret_uniq ((mem_life (k := k) rfl).2 hr) ((mem_life (k := k) rfl).2 hto), hbl hto⟩
  have hw := h2.asleep (k := k) (pre := pre) (post := mid ++ [.api .rxDropped]) (by simp) (by simpa using hcan) (by simpa using hc)
    (by simpa using hto)
  have hlate := Run.after_close (f := false) h2 h3 hh hcl (k := k) (by
    rw [hw]; exact ⟨⟨by simp, by simp, by simp [SPC.over]⟩, by simp, by simp⟩)
  have hlife := h2.life k
  rw [hw] at hlife
  obtain ⟨x, b, hlife⟩ := hlife
  have hr0 := hr
  rw [htr] at hr
  rw [show pre ++ .api (.sleep k) :: mid ++ .api .rxDropped :: post = (pre ++ .api (.sleep k) :: mid ++ [.api .rxDropped]) ++ post by simp] at hr
  rcases List.mem_append.1 hr with hr | hr
  · have := (mem_life (k := k) rfl).2 hr
    rw [hlife] at this
    simp at this
  · exact (hlate.ret r hr).imp id fun e => ⟨e, hbl (e ▸ hr0)⟩

/-- A send call that waits when the `Receiver` is dropped is woken. On any memory. -/
theorem ExecM.waiters_woken {m : Bool} {mm : Prop} (h : ExecM m c tr s) {pre mid post : Trace V W} {k : Nat}
    (htr : tr = pre ++ .api (.sleep k) :: mid ++ .api .rxDropped :: post) (hf : Facts mm w c.cap (coreOf (pre ++ .api (.sleep k) :: mid ++ [.api .rxDropped])))
    (hp : .api (.dropRx true) ∉ tr)
    (hc : ∀ v, .queue (.callCont k v) ∉ mid) (hcan : .api (.cancel k) ∉ mid) (hto : .api (.retSend k .timeout) ∉ mid) :
    ∃ o v, .queue (.wake o k v) ∈ mid := by
  obtain ⟨tr0, l, s0, s1, h0, hl, h1, h2, h3⟩ := h.at_api htr (by simp)
  have hw := h2.asleep (k := k) (pre := pre) (post := mid ++ [.api .rxDropped]) (by simp) (by simpa using hcan) (by simpa using hc)
    (by simpa using hto)
  have hne := h2.active_handles (k := k) (by rw [hw]; rfl)
  obtain ⟨o, ho⟩ := (h2.rx_closed hf (h2.rxInv.gone (by simp)) (fun hm => hp (by rw [htr]; simp at hm ⊢; rcases hm with hm | hm <;> simp [hm]))).2 (h2.hinv.closer.2 hne)
  have hq := h2.sleep_queued (k := k) (pre := pre) (post := mid ++ [.api .rxDropped]) (by simp)
  have hx := h2.queue
  have he : queueOf (pre ++ .api (.sleep k) :: mid ++ [.api .rxDropped]) = queueOf pre ++ queueOf mid := by
    simp only [queueOf_append]; simp [queueOf]
  rw [he] at hx ho
  have hok := hx.evOk
  obtain ⟨a, v, b, hab, hlv⟩ := (Queue.mem_queueOf (hok.prefix ⟨_, rfl⟩)).1 hq
  obtain ⟨p, q, hpq⟩ := List.append_of_mem ho
  have hlife := h2.life k
  rw [hw] at hlife
  obtain ⟨x, wt, hlife⟩ := hlife
  rcases append_split (show a ++ (.enq k v :: (b ++ queueOf mid)) = p ++ .retClose o :: q by rw [← hpq, hab]; simp) with ⟨l, h4, h5⟩ | ⟨l, h5, h4⟩
  · have := hok _ _ _ (show queueOf pre ++ queueOf mid = a ++ .enq k v :: (b ++ queueOf mid) by rw [hab]; simp)
    exact absurd (by rw [h5]; simp) (this.2.2.2.1 o)
  · cases l with
    | nil => cases h5
    | cons e l =>
      obtain ⟨rfl, h5⟩ := List.cons.inj h5
      rcases Queue.C27_all_woken hx hpq h4 with h6 | ⟨o', b1, b2, u, h6, h7⟩
      · have h8 := h2.rem_cancel (k := k) (by
          rw [← mem_queueOf, he, hpq, h4]; simp [h6])
        have h9 := (mem_life (k := k) rfl).2 h8
        rw [hlife] at h9
        simp at h9
      · rw [h6] at h5
        rcases append_split (show b ++ queueOf mid = b1 ++ .deq o' k :: (b2 ++ .retClose o :: q) by simpa using (List.cons.inj h5).2) with ⟨l', h8, h9⟩ | ⟨l', h9, h8⟩
        · exact absurd (.inl ⟨o', rfl⟩) (hlv (.deq o' k) (by rw [h9]; simp))
        · refine ⟨o', u, ?_⟩
          rw [← mem_queueOf, h9]
          simp [h7]

/-- **C33** (partial: as above) A send call that waits, is not cancelled, does not time out and is not polled again while the `Receiver` is dropped, is woken before the drop is over. -/
theorem C33_waiters_woken_partial (h : Run c tr s) {pre mid post : Trace V W} {k : Nat}
    (htr : tr = pre ++ .api (.sleep k) :: mid ++ .api .rxDropped :: post) (hp : .api (.dropRx true) ∉ tr)
    (hc : ∀ v, .queue (.callCont k v) ∉ mid) (hcan : .api (.cancel k) ∉ mid) (hto : .api (.retSend k .timeout) ∉ mid) :
    ∃ o v, .queue (.wake o k v) ∈ mid := by
  obtain ⟨tr0, l, s0, s1, h0, hl, h1, h2, h3⟩ := h.exec.at_api htr (by simp)
  have hh : Run c ((pre ++ .api (.sleep k) :: mid ++ [.api .rxDropped]) ++ post) s := by rw [htr] at h; simpa using h
  exact h.exec.waiters_woken htr (Run.before hh h2).core.facts hp hc hcan hto

/-- Call 2 finds the channel full and waits; the `Receiver` is dropped; call 2 is woken and returns `Closed`, so does the new call 3. -/
def closeDemo : List It :=
  iSend 1 100 11 ++ iDropSend 1 200 ++ iSend 2 101 12 ++ iStart 2 22 ++ iDropRx false [400, 401, 402] ++ iCont 2 22 ++ iSend 3 102 13 ++
  iSend 4 103 14 (wait := false)

example : (∃ s : State 8 Nat Nat, Run (demoC 1 false) (scriptTr (demoC 1 false) closeDemo) s) ∧
    [.sleep 2, .dropRx false, .rxDropped, .retSend 2 .closed, .callSend 3 0 true, .retSend 3 .closed,
      .callSend 4 0 false, .retSend 4 .closed].Sublist (apiOf (scriptTr (demoC 1 false) closeDemo)) ∧
    .queue (.wake 400 2 22) ∈ scriptTr (demoC 1 false) closeDemo ∧ .api (.dropRx true) ∉ scriptTr (demoC 1 false) closeDemo :=
  ⟨Run.of_scriptTr (by decide) (by decide +kernel) (by decide +kernel), by decide +kernel, by decide +kernel, by decide +kernel⟩

/-- The blocking channel: the same. -/
example : (∃ s : State 8 Nat Nat, Run (demoC 1 true) (scriptTr (demoC 1 true) closeDemo) s) ∧
    [.sleep 2, .dropRx false, .rxDropped, .retSend 2 .closed, .callSend 3 0 true, .retSend 3 .closed,
      .callSend 4 0 false, .retSend 4 .closed].Sublist (apiOf (scriptTr (demoC 1 true) closeDemo)) ∧ .api (.retSend 2 .timeout) ∉ scriptTr (demoC 1 true) closeDemo :=
  ⟨Run.of_scriptTr (by decide) (by decide +kernel) (by decide +kernel), by decide +kernel, by decide +kernel⟩

/-- The blocking channel: call 2, which waits when the `Receiver` is dropped, is a `send_timeout` whose time is up when it is woken. -/
def closeLate : List It :=
  iSend 1 100 11 ++ iDropSend 1 200 ++ iSend 2 101 12 ++ iStart 2 22 ++ iDropRx false [400, 401, 402] ++ [.one (.timeout 2)]

example : (∃ s : State 8 Nat Nat, Run (demoC 1 true) (scriptTr (demoC 1 true) closeLate) s) ∧
    [.sleep 2, .dropRx false, .rxDropped, .retSend 2 .timeout].Sublist (apiOf (scriptTr (demoC 1 true) closeLate)) :=
  ⟨Run.of_scriptTr (by decide) (by decide +kernel) (by decide +kernel), by decide +kernel⟩

/-- The `Receiver` is dropped while its thread is panicking. Call 2, which waits, is not woken; call 3 waits as well. -/
def panicDemo : List It :=
  iSend 1 100 11 ++ iDropSend 1 200 ++ iSend 2 101 12 ++ iStart 2 22 ++ iDropRx true [400, 401, 402] ++ iSend 3 102 13 ++ iStart 3 23

/-- **C33 is false** if the `Receiver` is dropped while its thread is panicking (`Core::close`, `src/lib.rs:168-170`, does nothing then): a channel
nobody will ever receive from stays open. In this run a sender that waited when the `Receiver` was dropped is not woken,
and a `send` that is called afterwards waits, too, instead of returning `Closed`. -/
theorem C33_false_if_dropped_by_panic (blocking : Bool) : ∃ (tr : Trace Nat Nat) (s : State 8 Nat Nat), Run (demoC 1 blocking) tr s ∧
    [.sleep 2, .dropRx true, .rxDropped, .callSend 3 0 true, .sleep 3].Sublist (apiOf tr) ∧
    (∀ o n v, .queue (.wake o n v) ∉ tr) ∧ (∀ r, .api (.retSend 2 r) ∉ tr) ∧ ∀ r, .api (.retSend 3 r) ∉ tr := by
  obtain ⟨s, hs⟩ : ∃ s : State 8 Nat Nat, Run (demoC 1 blocking) (scriptTr (demoC 1 blocking) panicDemo) s := by
    cases blocking <;> exact Run.of_scriptTr (by decide) (by decide +kernel) (by decide +kernel)
  refine ⟨_, s, hs, by cases blocking <;> decide +kernel, fun o n v => noWake_iff.1 (by cases blocking <;> decide +kernel) o n v,
    noRet_iff.1 (by cases blocking <;> decide +kernel), noRet_iff.1 (by cases blocking <;> decide +kernel)⟩

end Thingbuf.Chan
