import Verif.WeakLast
import Verif.ChanCloseProps
import Verif.ChanFullProps
import Verif.ChanTryProps
import Verif.ChanLiftProps
import Verif.ChanLast
import Verif.ChanLinSend

/-!
# Lemmas about the results of send calls that hold on any memory
-/

namespace Thingbuf.Chan

section
variable {w : Nat} {V W : Type} {m : Bool} {mm : Prop} {c : Config W} {tr : Trace V W} {s : State w V W}

/-- A send call panics only if it has reserved a slot (a new value could not be made). -/
theorem ExecM.ret_panicked (h : ExecM m c tr s) (hf : Facts mm w c.cap (coreOf tr)) {k : Nat} (hr : .api (.retSend k .panicked) ∈ tr) :
    ∃ a, .api (.attempt k a) ∈ tr ∧ a ∈ resOps (coreOf tr) := by
  obtain ⟨pre, post, htr⟩ := List.append_of_mem hr
  obtain ⟨tr0, l, s0, s1, h0, hl, h1, h2, h3⟩ := h.at_api htr (by simp)
  cases h1 with
  | api hm hl hr hs => cases hm
  | core es1 es2 h1 hm hl' hr hs =>
    generalize hes : es1 ++ Api.retSend k .panicked :: es2 = es at hm
    generalize hret : coreRet _ = ret at hm
    have hmem : Api.retSend k .panicked ∈ es := by rw [← hes]; simp
    have hev := core_evs h1
    cases hm <;> simp at hmem
    case pushPanic j a att i r hp hn1 hn2 hn3 =>
      subst hmem
      have hx := hev.ret' _ hret
      rw [actOp_push] at hx
      have hatt : .api (.attempt k a) ∈ tr0 := by
        have := h0.attInv.att k
        rw [hp] at this
        exact this.1
      have hin : .api (.attempt k a) ∈ tr := by rw [htr, hl]; simp [hatt]
      have hx' : Event.ret a r ∈ coreOf tr := by
        rw [mem_coreOf, htr, hl, hl']
        simp [hx]
      refine ⟨a, hin, ?_⟩
      have hinv : Event.invoke a .push ∈ coreOf tr := mem_coreOf.2 (h.attempt_push hin)
      obtain ⟨x, y, hxy⟩ := List.append_of_mem hx'
      have he := hf.evOk hxy
      have hu : ∀ op, Event.invoke a op ∈ x → op = .push := fun op ho =>
        hf.invoke_unique (by rw [hxy]; simp [ho]) hinv
      rw [hf.ret_reserved hx']
      cases r with
      | pushed => exact .inl rfl
      | panicked => exact .inr rfl
      | closed => exact absurd rfl hn2
      | full => exact absurd rfl hn3
      | popped => cases hu _ he.2.2.2
      | closeRet b => rcases he.2.2 with h1 | h1 <;> cases hu _ h1.1
      | empty => cases hu _ he.2.2.2.2.1
      | len n => cases hu _ he.2.2.2.2.1
      | crash => exact he.2.2.2.2.elim
  | cell es1 es2 h1 hm hl hr hs =>
    generalize hes : es1 ++ Api.retSend k .panicked :: es2 = es at hm
    have : Api.retSend k .panicked ∈ es := by rw [← hes]; simp
    cases hm <;> simp at this
  | @queue act q1 evs t es1 es2 h1 hm hl' hr hs =>
    generalize hes : es1 ++ Api.retSend k .panicked :: es2 = es at hm
    have hmem : Api.retSend k .panicked ∈ es := by rw [← hes]; simp
    cases hm <;> simp at hmem
    · rename_i hj hn hr
      obtain ⟨r', rfl⟩ := h0.node_ret h1 (.inl hj) hr
      exact absurd rfl (hn r')
    · rename_i hj hn hr
      obtain ⟨r', rfl⟩ := h0.node_ret h1 (.inr hj) hr
      exact absurd rfl (hn r')

/-- A send call that is not trying to send when the channel is closed sends nothing. -/
theorem ExecM.no_late_res (h : ExecM m c tr s) (hf : Facts mm w c.cap (coreOf tr)) {pre post : Trace V W} {s0 : State w V W} (h0 : ExecM m c pre s0)
    (hf0 : Facts mm w c.cap (coreOf pre)) (htr : tr = pre ++ post) (hcl : Closed (coreOf pre)) {k : Nat} (hk : s0.snd k = .off ∨ s0.snd k = .waiting) {a : OpId}
    (ha : .api (.attempt k a) ∈ tr) : a ∉ resOps (coreOf tr) := by
  intro hr
  rw [htr, coreOf_append, resOps_append] at hr
  rcases List.mem_append.1 hr with hr | hr
  · obtain ⟨k', h1, h2, -⟩ := h0.sender hf0 hr
    have hkk := h.attInv.uniq _ _ _ ha (show .api (.attempt k' a) ∈ tr by rw [htr]; exact List.mem_append_left _ h1)
    subst hkk
    have hl := h0.life k
    have : ∀ r, .api (.retSend k r) ∉ pre := by
      intro r hm
      have hm := (mem_life (k := k) rfl).2 hm
      rcases hk with hk | hk <;> rw [hk] at hl
      · rw [show Chan.life k _ = [] from hl] at hm; cases hm
      · obtain ⟨x, b, hl⟩ := hl
        rw [hl] at hm; simp at hm
    rcases h2 with ⟨att, h2⟩ | h2 | h2
    · rcases hk with hk | hk <;> (rw [hk] at h2; cases h2)
    · exact this _ h2
    · exact this _ h2
  · obtain ⟨i, hi⟩ := mem_resOps.1 hr
    obtain ⟨x, y, hxy⟩ := List.append_of_mem hi
    obtain ⟨b, hb⟩ := hcl
    exact (hf.evOk (show coreOf tr = (coreOf pre ++ x) ++ .reserve a i :: y by rw [htr, coreOf_append, hxy]; simp)).2.1 ⟨b, by simp [hb]⟩

/-- Nobody goes to sleep after the drop of the receiver. -/
theorem ExecM.no_late_sleep (h : ExecM m c tr s) {pre post : Trace V W} (htr : tr = pre ++ .api .rxDropped :: post)
    (hf : Facts mm w c.cap (coreOf (pre ++ [.api .rxDropped]))) (hp : .api (.dropRx true) ∉ tr) (k : Nat) : .api (.sleep k) ∉ post := by
  intro hm
  obtain ⟨p, q, rfl⟩ := List.append_of_mem hm
  obtain ⟨tr0, l, s0, s1, h0, hl, h1, h2, h3⟩ := h.at_api htr (by simp)
  have htr' : tr = (pre ++ .api .rxDropped :: p) ++ .api (.sleep k) :: q := by rw [htr]; simp
  obtain ⟨tr0', l', s0', s1', -, -, -, h2', -⟩ := h.at_api htr' (by simp)
  have hw := h2'.asleep rfl (by simp) (by simp) (by simp)
  have hne := h2'.active_handles (k := k) (by rw [hw]; rfl)
  have hcn : s1.closer = .none := by
    refine h2.hinv.closer.2 fun hh => ?_
    have hn : s1.closer ≠ .none := fun e => h2.hinv.closer.1 e hh
    have hd : ∃ pan, LastDrop (pre ++ [.api .rxDropped]) pan := by
      have := h2.clInv.hist
      generalize s1.closer = cl at this hn
      cases cl <;> simp only [ClHist] at this
      · exact absurd rfl hn
      · exact ⟨_, this.1.1⟩
      · obtain ⟨pan, h4, -⟩ := this; exact ⟨pan, h4.1⟩
      all_goals (obtain ⟨pan, _, _, h4, -⟩ := this; exact ⟨pan, h4.1⟩)
    obtain ⟨pan, hd⟩ := hd
    exact h2'.no_lastDrop hne pan (by have := hd.mono (p ++ [.api (.sleep k)]); simpa using this)
  obtain ⟨o, ho⟩ := (h2.rx_closed hf (h2.rxInv.gone (by simp)) (fun hm => hp (by rw [htr]; simp at hm; simp [hm]))).2 hcn
  have hq := h.sleep_queued htr'
  have hx := h2'.queue
  have e1 : queueOf (pre ++ [.api .rxDropped] : Trace V W) = queueOf pre := by simp [queueOf_append, queueOf]
  have e2 : queueOf (pre ++ .api .rxDropped :: p) = queueOf pre ++ queueOf p := by simp [queueOf_append, queueOf]
  have e3 : queueOf (pre ++ .api .rxDropped :: p ++ [.api (.sleep k)] : Trace V W) = queueOf pre ++ queueOf p := by simp [queueOf_append, queueOf]
  rw [e3] at hx
  rw [e2] at hq
  rw [e1] at ho
  obtain ⟨u, v, huv⟩ := List.append_of_mem ho
  have hsp : queueOf pre ++ queueOf p = u ++ .retClose o :: (v ++ queueOf p) := by rw [huv]; simp
  obtain ⟨a, z, b, hab, hlv⟩ := (Queue.mem_queueOf hx.evOk).1 hq
  rw [hsp] at hab
  rcases append_split hab.symm with ⟨l, hl5, h5⟩ | ⟨l, h5, h4⟩
  · exact (Queue.C27_no_wait_after hx hsp k).1 z (by rw [hl5]; simp)
  · cases l with
    | nil => cases h5
    | cons e l =>
      obtain ⟨rfl, h8⟩ := List.cons.inj h5
      rcases Queue.C27_all_woken hx hsp h4 with h6 | ⟨o', b1, b2, y, h6, -⟩
      · exact hlv (.rem k) (by rw [h8]; simp [h6]) (.inr rfl)
      · exact hlv (.deq o' k) (by rw [h8, h6]; simp) (.inl ⟨o', rfl⟩)

/-- A send call that sends nothing: what it returns. -/
theorem ExecM.ret_nothing (h : ExecM m c tr s) (hf : Facts mm w c.cap (coreOf tr)) {k : Nat} (hk : ∀ a, .api (.attempt k a) ∈ tr → a ∉ resOps (coreOf tr)) {r : SendRes}
    (hr : .api (.retSend k r) ∈ tr) : r = .closed ∨ r = .full ∨ r = .timeout := by
  cases r with
  | closed => exact .inl rfl
  | full => exact .inr (.inl rfl)
  | timeout => exact .inr (.inr rfl)
  | ok a => exact absurd (h.send_has_slot hf hr).2.1 (hk a (h.ret_ok hr).1)
  | panicked =>
    obtain ⟨a, h1, h2⟩ := h.ret_panicked hf hr
    exact absurd h2 (hk a h1)

/-- A send call that is made after the drop of the receiver. -/
theorem ExecM.late_call (h : ExecM m c tr s) (hf : Facts mm w c.cap (coreOf tr)) {pre post : Trace V W} (htr : tr = pre ++ .api .rxDropped :: post)
    (hf0 : Facts mm w c.cap (coreOf (pre ++ [.api .rxDropped]))) (hp : .api (.dropRx true) ∉ tr) {k x : Nat} {wait : Bool} (hk : .api (.callSend k x wait) ∈ post) :
    (∀ r, .api (.retSend k r) ∈ tr → r = .closed ∨ (r = .full ∧ wait = false)) ∧ .api (.sleep k) ∉ tr := by
  obtain ⟨tr0, l, s0, s1, h0, hl, h1, h2, h3⟩ := h.at_api htr (by simp)
  have htr1 : tr = (pre ++ [.api .rxDropped]) ++ post := by rw [htr]; simp
  have hcl := (h2.rx_closed hf0 (h2.rxInv.gone (by simp)) (fun hm => hp (by rw [htr]; simp at hm; simp [hm]))).1
  have hoff := h.not_called h2 htr1 hk
  have hsl : .api (.sleep k) ∉ tr := by
    intro hm
    rw [htr1] at hm
    rcases List.mem_append.1 hm with hm | hm
    · obtain ⟨x, b, hc⟩ := h2.sleep_called hm
      have hlife := h2.life k
      rw [hoff] at hlife
      have := (mem_life (k := k) rfl).2 hc
      rw [show Chan.life k _ = [] from hlife] at this
      cases this
    · exact h.no_late_sleep htr hf0 hp k hm
  refine ⟨fun r hr => ?_, hsl⟩
  rcases h.ret_nothing hf (fun a => h.no_late_res hf h2 hf0 htr1 hcl (.inl hoff)) hr with rfl | rfl | rfl
  · exact .inl rfl
  · obtain ⟨p, q, hpq⟩ := List.append_of_mem hr
    obtain ⟨z, hz⟩ := (h.ret_full hf hpq).1
    exact .inr ⟨rfl, (h.call_unique (show .api (.callSend k x wait) ∈ tr by rw [htr]; simp [hk]) (show .api (.callSend k z false) ∈ tr by rw [hpq]; simp [hz])).2⟩
  · obtain ⟨p, q, hpq⟩ := List.append_of_mem hr
    obtain ⟨-, u, v, huv, -⟩ := h.timeout_slept hpq
    exact absurd (by rw [hpq, huv]; simp) hsl

/-- A send call that waits when the receiver is dropped. -/
theorem ExecM.late_waiting (h : ExecM m c tr s) (hf : Facts mm w c.cap (coreOf tr)) {pre mid post : Trace V W} {k : Nat}
    (htr : tr = pre ++ .api (.sleep k) :: mid ++ .api .rxDropped :: post) (hf0 : Facts mm w c.cap (coreOf (pre ++ .api (.sleep k) :: mid ++ [.api .rxDropped])))
    (hp : .api (.dropRx true) ∉ tr) (hc : ∀ v, .queue (.callCont k v) ∉ mid) {r : SendRes} (hr : .api (.retSend k r) ∈ tr) :
    r = .closed ∨ (r = .timeout ∧ c.blocking = true) := by
  obtain ⟨tr0, l, s0, s1, h0, hl, h1, h2, h3⟩ := h.at_api htr (by simp)
  have htr1 : tr = (pre ++ .api (.sleep k) :: mid ++ [.api .rxDropped]) ++ post := by rw [htr]; simp
  have hcl := (h2.rx_closed hf0 (h2.rxInv.gone (by simp)) (fun hm => hp (by rw [htr]; simp at hm ⊢; rcases hm with hm | hm <;> simp [hm]))).1
  have hbl : .api (.retSend k .timeout) ∈ tr → c.blocking = true := fun ht => by
    obtain ⟨p, q, hpq⟩ := List.append_of_mem ht
    exact (h.timeout_slept hpq).1
  by_cases hcan : .api (.cancel k) ∈ mid
  · have h4 := (mem_life (k := k) rfl).2 hr
    have h5 := (mem_life (k := k) (tr := tr) (e := .cancel k) rfl).2 (by rw [htr]; simp [hcan])
    exact absurd h4 ((h.life k).cancelled h5 r)
  by_cases hto : .api (.retSend k .timeout) ∈ mid
  · have hto : .api (.retSend k .timeout) ∈ tr := by rw [htr]; simp [hto]
    exact .inr ⟨(h.life k).ret_uniq ((mem_life (k := k) rfl).2 hr) ((mem_life (k := k) rfl).2 hto), hbl hto⟩
  have hw := h2.asleep (k := k) (pre := pre) (post := mid ++ [.api .rxDropped]) (by simp) (by simpa using hcan) (by simpa using hc)
    (by simpa using hto)
  rcases h.ret_nothing hf (fun a => h.no_late_res hf h2 hf0 htr1 hcl (.inr hw)) hr with rfl | rfl | rfl
  · exact .inl rfl
  · obtain ⟨p, q, hpq⟩ := List.append_of_mem hr
    obtain ⟨z, hz⟩ := (h.ret_full hf hpq).1
    obtain ⟨z', hz'⟩ := h.sleep_kind (k := k) (by rw [htr]; simp)
    exact absurd (h.call_unique hz' (show .api (.callSend k z false) ∈ tr by rw [hpq]; simp [hz])).2 (by simp)
  · exact .inr ⟨rfl, hbl hr⟩

end

section
variable {w : Nat} {V : Type} {o : RA.Orders} {co : RA.CellOrders} {c : Config Nat} {tr : Trace V Nat} {xtr : List (RA.REv V)} {s : WState w V}

/-- The execution up to an event of the API. -/
theorem WExec.at_api (h : WExec o co c w tr xtr s) {pre post : Trace V Nat} {e : Api Nat} (htr : tr = pre ++ .api e :: post)
    (he : ∀ k x b, e ≠ .callSend k x b) : ∃ xtr1 s1, WExec o co c w (pre ++ [.api e]) xtr1 s1 := by
  induction h generalizing post with
  | init => simp at htr
  | sync _ _ _ ih => exact ih htr
  | step h hs ht ih =>
    rcases append_split htr with ⟨post', -, h2⟩ | ⟨e1, h1, h2⟩
    · exact ih h2
    · have := wstep_one hs e1 e post h1 he
      subst this
      have := WExec.step h hs ht
      rw [h1, ← List.append_assoc, ← h2] at this
      exact ⟨_, _, this⟩

theorem WRun.at_api (h : WRun c w tr xtr s) {pre post : Trace V Nat} {e : Api Nat} (htr : tr = pre ++ .api e :: post)
    (he : ∀ k x b, e ≠ .callSend k x b) : ∃ xtr1 s1, WRun c w (pre ++ [.api e]) xtr1 s1 := by
  obtain ⟨xtr1, s1, h1⟩ := h.exec.at_api htr he
  exact ⟨xtr1, s1, h.sized, h.std, h1⟩

theorem WRun.facts_at (h : WRun c w tr xtr s) {pre post : Trace V Nat} {e : Api Nat} (htr : tr = pre ++ .api e :: post)
    (he : ∀ k x b, e ≠ .callSend k x b) : Facts False w c.cap (coreOf (pre ++ [.api e])) := by
  obtain ⟨xtr1, s1, h1⟩ := h.at_api htr he
  exact h1.facts

end
end Thingbuf.Chan
