import Verif.ChanSeqRecv
import Verif.ChanOwn
/-!
# Sequential use of the channel: every run is the one of the specification

A run of a call is determined by the state it starts in and by the environment, and it depends on the environment only at
finitely many steps.
-/

namespace Thingbuf.Chan

variable {w : Nat} {V W : Type} {c : Config W} {s s1 s2 : State w V W} {σ : Spec V W} {i j j1 j2 k : Nat} {env : Env V}
  {e1 e2 : Trace V W} {next : State w V W → Nat → Option (Act V W)}

/-! ## A run is determined by its start -/

theorem Goes.det (h : Goes c next s i s1 e1 j1) (h' : Goes c next s i s2 e2 j2) : s1 = s2 ∧ e1 = e2 ∧ j1 = j2 := by
  induction h generalizing s2 e2 j2 with
  | stop hn =>
    cases h' with
    | stop => exact ⟨rfl, rfl, rfl⟩
    | step hn' => rw [hn] at hn'; cases hn'
  | step hn hs _ ih =>
    cases h' with
    | stop hn' => rw [hn] at hn'; cases hn'
    | step hn' hs' ht' =>
      rw [hn] at hn'
      cases hn'
      rw [hs] at hs'
      cases hs'
      obtain ⟨rfl, rfl, rfl⟩ := ih ht'
      exact ⟨rfl, rfl, rfl⟩

theorem Begins.det {act : Act V W} (h : Begins c next act s i s1 e1 j1) (h' : Begins c next act s i s2 e2 j2) :
    s1 = s2 ∧ e1 = e2 ∧ j1 = j2 := by
  obtain ⟨t, f, f', hs, ht, rfl⟩ := h
  obtain ⟨t', g, g', hs', ht', rfl⟩ := h'
  rw [hs] at hs'
  cases hs'
  obtain ⟨rfl, rfl, rfl⟩ := ht.det ht'
  exact ⟨rfl, rfl, rfl⟩

theorem ThenWrite.det {v : V} (h : ThenWrite c env k v s i s1 e1 j1) (h' : ThenWrite c env k v s i s2 e2 j2) :
    s1 = s2 ∧ e1 = e2 ∧ j1 = j2 := by
  cases h with
  | write ha hs hb =>
    cases h' with
    | write _ hs' hb' =>
      rw [hs] at hs'
      cases hs'
      obtain ⟨rfl, rfl, rfl⟩ := hb.det hb'
      exact ⟨rfl, rfl, rfl⟩
    | skip hn => exact absurd ha (hn _)
  | skip hn =>
    cases h' with
    | write ha => exact absurd ha (hn _)
    | skip => exact ⟨rfl, rfl, rfl⟩

theorem ThenTake.det (h : ThenTake c env s i s1 e1 j1) (h' : ThenTake c env s i s2 e2 j2) : s1 = s2 ∧ e1 = e2 ∧ j1 = j2 := by
  cases h with
  | take hr hs ht hb =>
    cases h' with
    | take hr' hs' ht' hb' =>
      rw [hr] at hr'
      cases hr'
      rw [hs] at hs'
      cases hs'
      rw [ht] at ht'
      cases ht'
      obtain ⟨rfl, rfl, rfl⟩ := hb.det hb'
      exact ⟨rfl, rfl, rfl⟩
    | skip hr' => rw [hr] at hr'; cases hr'
  | skip hr =>
    cases h' with
    | take hr' => rw [hr] at hr'; cases hr'
    | skip => exact ⟨rfl, rfl, rfl⟩

theorem CallRun.det {call : Call V W} (h : CallRun c env s i k call s1 e1 j1) (h' : CallRun c env s i k call s2 e2 j2) :
    s1 = s2 ∧ e1 = e2 ∧ j1 = j2 := by
  cases h with
  | clone hs =>
    cases h' with
    | clone hs' =>
      rw [hs] at hs'
      cases hs'
      exact ⟨rfl, rfl, rfl⟩
  | dropTx hb => cases h' with | dropTx hb' => exact hb.det hb'
  | trySend hb ht =>
    cases h' with
    | trySend hb' ht' =>
      obtain ⟨rfl, rfl, rfl⟩ := hb.det hb'
      obtain ⟨rfl, rfl, rfl⟩ := ht.det ht'
      exact ⟨rfl, rfl, rfl⟩
  | send hb ht =>
    cases h' with
    | send hb' ht' =>
      obtain ⟨rfl, rfl, rfl⟩ := hb.det hb'
      obtain ⟨rfl, rfl, rfl⟩ := ht.det ht'
      exact ⟨rfl, rfl, rfl⟩
  | pollSend hb ht =>
    cases h' with
    | pollSend hb' ht' =>
      obtain ⟨rfl, rfl, rfl⟩ := hb.det hb'
      obtain ⟨rfl, rfl, rfl⟩ := ht.det ht'
      exact ⟨rfl, rfl, rfl⟩
  | cancel hb => cases h' with | cancel hb' => exact hb.det hb'
  | tryRecv hb ht =>
    cases h' with
    | tryRecv hb' ht' =>
      obtain ⟨rfl, rfl, rfl⟩ := hb.det hb'
      obtain ⟨rfl, rfl, rfl⟩ := ht.det ht'
      exact ⟨rfl, rfl, rfl⟩
  | recv hb ht =>
    cases h' with
    | recv hb' ht' =>
      obtain ⟨rfl, rfl, rfl⟩ := hb.det hb'
      obtain ⟨rfl, rfl, rfl⟩ := ht.det ht'
      exact ⟨rfl, rfl, rfl⟩
  | dropRx hb => cases h' with | dropRx hb' => exact hb.det hb'

/-! ## A run uses finitely many decisions of the environment -/

/-- The environments decide alike in the first `N` steps. -/
def Agree (N : Nat) (env env' : Env V) : Prop := ∀ i, i < N → env.spur i = env'.spur i ∧ env.junk i = env'.junk i

theorem Agree.mono {N M : Nat} {env' : Env V} (h : Agree N env env') (hm : M ≤ N) : Agree M env env' :=
  fun i hi => h i (Nat.lt_of_lt_of_le hi hm)

/-- What is done at step `i` depends only on what the environment decides at step `i`. -/
def Local (next : Env V → State w V W → Nat → Option (Act V W)) : Prop :=
  ∀ env env' s i, env.spur i = env'.spur i → env.junk i = env'.junk i → next env s i = next env' s i

theorem local_send {u : Option W} : Local (w := w) fun (env : Env V) => sendNext env k u := by
  intro env env' s i h1 h2
  simp only [sendNext, h1, h2]

theorem local_rx : Local (w := w) (W := W) fun (env : Env V) => rxNext env := by
  intro env env' s i h1 h2
  simp only [rxNext, h1]

theorem local_ref {a : OpId} : Local (w := w) (W := W) fun (env : Env V) => refNext env a := by
  intro env env' s i h1 h2
  simp only [refNext, h1]

theorem local_closer : Local (w := w) (W := W) fun (_ : Env V) => closerNext := fun _ _ _ _ _ _ => rfl

theorem Goes.agree {next : Env V → State w V W → Nat → Option (Act V W)} (hn : Local next) (h : Goes c (next env) s i s1 e1 j) :
    ∃ N, ∀ env', Agree N env env' → Goes c (next env') s i s1 e1 j := by
  generalize hg : next env = f at h
  induction h with
  | @stop s i h =>
    subst hg
    refine ⟨i + 1, fun env' ha => .stop ?_⟩
    obtain ⟨h1, h2⟩ := ha i (Nat.lt_succ_self _)
    rw [← hn env env' s i h1 h2]
    exact h
  | @step s s1 s2 i j act e1 e2 h hs _ ih =>
    subst hg
    obtain ⟨N, ih⟩ := ih
    refine ⟨max N (i + 1), fun env' ha => .step ?_ hs (ih env' (ha.mono (Nat.le_max_left _ _)))⟩
    obtain ⟨h1, h2⟩ := ha i (by omega)
    rw [← hn env env' s i h1 h2]
    exact h

theorem Begins.agree {next : Env V → State w V W → Nat → Option (Act V W)} {act : Act V W} (hn : Local next)
    (h : Begins c (next env) act s i s1 e1 j) : ∃ N, ∀ env', Agree N env env' → Begins c (next env') act s i s1 e1 j := by
  obtain ⟨t, f, f', hs, ht, rfl⟩ := h
  obtain ⟨N, hN⟩ := ht.agree hn
  exact ⟨N, fun env' ha => ⟨t, f, f', hs, hN env' ha, rfl⟩⟩

theorem ThenWrite.agree {v : V} (h : ThenWrite c env k v s i s1 e1 j) :
    ∃ N, ∀ env', Agree N env env' → ThenWrite c env' k v s i s1 e1 j := by
  cases h with
  | write ha hs hb =>
    obtain ⟨N, hN⟩ := hb.agree local_send
    exact ⟨N, fun env' hE => .write ha hs (hN env' hE)⟩
  | skip hn => exact ⟨0, fun _ _ => .skip hn⟩

theorem ThenTake.agree (h : ThenTake c env s i s1 e1 j) : ∃ N, ∀ env', Agree N env env' → ThenTake c env' s i s1 e1 j := by
  cases h with
  | take hr hs ht hb =>
    obtain ⟨N, hN⟩ := hb.agree local_ref
    refine ⟨max N (i + 1), fun env' hE => .take hr hs ?_ (hN env' (hE.mono (Nat.le_max_left _ _)))⟩
    rw [← (hE i (by omega)).2]
    exact ht
  | skip hr => exact ⟨0, fun _ _ => .skip hr⟩

theorem CallRun.agree {call : Call V W} (h : CallRun c env s i k call s1 e1 j) :
    ∃ N, ∀ env', Agree N env env' → CallRun c env' s i k call s1 e1 j := by
  cases h with
  | clone hs => exact ⟨0, fun _ _ => .clone hs⟩
  | dropTx hb => exact ⟨0, fun _ _ => .dropTx hb⟩
  | trySend hb ht =>
    obtain ⟨N, hN⟩ := hb.agree local_send
    obtain ⟨M, hM⟩ := ht.agree
    exact ⟨max N M, fun env' hE => .trySend (hN env' (hE.mono (Nat.le_max_left _ _))) (hM env' (hE.mono (Nat.le_max_right _ _)))⟩
  | send hb ht =>
    obtain ⟨N, hN⟩ := hb.agree local_send
    obtain ⟨M, hM⟩ := ht.agree
    exact ⟨max N M, fun env' hE => .send (hN env' (hE.mono (Nat.le_max_left _ _))) (hM env' (hE.mono (Nat.le_max_right _ _)))⟩
  | pollSend hb ht =>
    obtain ⟨N, hN⟩ := hb.agree local_send
    obtain ⟨M, hM⟩ := ht.agree
    exact ⟨max N M, fun env' hE => .pollSend (hN env' (hE.mono (Nat.le_max_left _ _))) (hM env' (hE.mono (Nat.le_max_right _ _)))⟩
  | cancel hb =>
    obtain ⟨N, hN⟩ := hb.agree local_send
    exact ⟨N, fun env' hE => .cancel (hN env' hE)⟩
  | tryRecv hb ht =>
    obtain ⟨N, hN⟩ := hb.agree local_rx
    obtain ⟨M, hM⟩ := ht.agree
    exact ⟨max N M, fun env' hE => .tryRecv (hN env' (hE.mono (Nat.le_max_left _ _))) (hM env' (hE.mono (Nat.le_max_right _ _)))⟩
  | recv hb ht =>
    obtain ⟨N, hN⟩ := hb.agree local_rx
    obtain ⟨M, hM⟩ := ht.agree
    exact ⟨max N M, fun env' hE => .recv (hN env' (hE.mono (Nat.le_max_left _ _))) (hM env' (hE.mono (Nat.le_max_right _ _)))⟩
  | dropRx hb =>
    obtain ⟨N, hN⟩ := hb.agree local_rx
    exact ⟨N, fun env' hE => .dropRx (hN env' hE)⟩

/-- A run is also a run in an environment in which compare-and-swaps fail spuriously only finitely often. -/
theorem CallRun.calm {call : Call V W} (h : CallRun c env s i k call s1 e1 j) :
    ∃ env' : Env V, env'.Calm ∧ CallRun c env' s i k call s1 e1 j := by
  obtain ⟨N, hN⟩ := h.agree
  refine ⟨⟨fun i => decide (i < N) && env.spur i, env.junk⟩, ⟨N, fun i hi => ?_⟩, hN _ fun i hi => ⟨?_, rfl⟩⟩
  · have : ¬ i < N := by omega
    simp [this]
  · simp [hi]

/-! ## Runs are executions -/

variable {tr : Trace V W}

theorem Goes.exec (h : Goes c next s i s1 e1 j) (hx : Exec c tr s) : Exec c (tr ++ e1) s1 := by
  induction h generalizing tr with
  | stop => rw [List.append_nil]; exact hx
  | step _ hs _ ih =>
    rw [← List.append_assoc]
    exact ih (hx.step hs)

theorem Begins.exec {act : Act V W} (h : Begins c next act s i s1 e1 j) (hx : Exec c tr s) : Exec c (tr ++ e1) s1 := by
  obtain ⟨t, f, f', hs, ht, rfl⟩ := h
  rw [← List.append_assoc]
  exact ht.exec (hx.step hs)

theorem ThenWrite.exec {v : V} (h : ThenWrite c env k v s i s1 e1 j) (hx : Exec c tr s) : Exec c (tr ++ e1) s1 := by
  cases h with
  | write _ hs hb =>
    rw [← List.append_assoc]
    exact hb.exec (hx.step hs)
  | skip => rw [List.append_nil]; exact hx

theorem ThenTake.exec (h : ThenTake c env s i s1 e1 j) (hx : Exec c tr s) : Exec c (tr ++ e1) s1 := by
  cases h with
  | take _ hs ht hb =>
    rw [← List.append_assoc, ← List.append_assoc]
    exact hb.exec ((hx.step hs).step ht)
  | skip => rw [List.append_nil]; exact hx

theorem CallRun.exec {call : Call V W} (h : CallRun c env s i k call s1 e1 j) (hx : Exec c tr s) : Exec c (tr ++ e1) s1 := by
  cases h with
  | clone hs => exact hx.step hs
  | dropTx hb => exact hb.exec hx
  | trySend hb ht => rw [← List.append_assoc]; exact ht.exec (hb.exec hx)
  | send hb ht => rw [← List.append_assoc]; exact ht.exec (hb.exec hx)
  | pollSend hb ht => rw [← List.append_assoc]; exact ht.exec (hb.exec hx)
  | cancel hb => exact hb.exec hx
  | tryRecv hb ht => rw [← List.append_assoc]; exact ht.exec (hb.exec hx)
  | recv hb ht => rw [← List.append_assoc]; exact ht.exec (hb.exec hx)
  | dropRx hb => exact hb.exec hx

theorem CallsRun.exec {calls : List (Call V W)} {os : List (List (Obs V W))} (h : CallsRun c env s i k calls s1 e1 os)
    (hx : Exec c tr s) : Exec c (tr ++ e1) s1 := by
  induction h generalizing tr with
  | nil => rw [List.append_nil]; exact hx
  | cons hc _ ih =>
    rw [← List.append_assoc]
    exact ih (hc.exec hx)

/-! ## A call that runs is possible in the specification -/

theorem Rel.rx_alive (h : Rel c s σ i σ.keys) {p : Option W} (hp : s.rx = .idle p) : σ.rx = true := by
  have := h.rx
  cases hr : σ.rx with
  | true => rfl
  | false => rw [hr] at this; simp [hp] at this

theorem Rel.pending (h : Rel c s σ i σ.keys) (hx : Exec c tr s) {m : Nat} (hm : (s.snd m).active = true) : σ.keys m := by
  obtain ⟨x, hx⟩ := (hx.hinv.act m).1 hm
  rw [h.calls] at hx
  exact List.mem_map.2 ⟨_, hx, rfl⟩

theorem Rel.possible (h : Rel c s σ i σ.keys) (hx : Exec c tr s) {call : Call V W} (hr : CallRun c env s i k call s1 e1 j) :
    ∃ σ' o, σ.step c.cap c.queue.same call = some (σ', o) := by
  cases hr with
  | @clone _ _ m hs =>
    simp only [step] at hs
    split at hs
    case isFalse => cases hs
    rename_i hm
    rw [h.handles] at hm
    exact ⟨_, _, if_pos hm.1⟩
  | @dropTx _ _ m _ hb =>
    obtain ⟨t, f, f', hs, -, -⟩ := hb
    simp only [step] at hs
    split at hs
    case isFalse => cases hs
    rename_i hm
    rw [h.handles, h.calls] at hm
    by_cases hn : σ.senders.erase m = []
    · exact ⟨_, _, (if_pos hm).trans (if_pos hn)⟩
    · exact ⟨_, _, (if_pos hm).trans (if_neg hn)⟩
  | @trySend _ _ _ _ m _ _ v hb =>
    obtain ⟨t, f, f', hs, -, -⟩ := hb
    simp only [step] at hs
    split at hs
    case h_2 => cases hs
    split at hs
    case isFalse => cases hs
    rename_i hm
    rw [h.handles] at hm
    exact ⟨_, _, if_pos hm⟩
  | @send _ _ _ _ m _ _ v u hb =>
    obtain ⟨t, f, f', hs, -, -⟩ := hb
    simp only [step] at hs
    split at hs
    case h_2 => cases hs
    split at hs
    case isFalse => cases hs
    rename_i hm
    rw [h.handles] at hm
    exact ⟨_, _, if_pos hm⟩
  | @pollSend _ _ _ _ m _ _ v u hb =>
    obtain ⟨t, f, f', hs, -, -⟩ := hb
    have hm : σ.keys m := by
      refine h.pending hx ?_
      simp only [step] at hs
      split at hs
      · rename_i hh; rw [hh]; rfl
      · rename_i hh; rw [hh]; rfl
      · cases hs
    by_cases hn : m ∈ σ.waiting.map Prod.fst
    · exact ⟨_, _, (if_pos hm).trans (if_pos hn)⟩
    · exact ⟨_, _, (if_pos hm).trans (if_neg hn)⟩
  | @cancel _ _ m _ hb =>
    obtain ⟨t, f, f', hs, -, -⟩ := hb
    have hm : σ.keys m := by
      refine h.pending hx ?_
      simp only [step] at hs
      split at hs
      · rename_i hh; rw [hh]; rfl
      · cases hs
    exact ⟨_, _, if_pos hm⟩
  | tryRecv hb =>
    obtain ⟨t, f, f', hs, -, -⟩ := hb
    have hrx : σ.rx = true := by
      simp only [step] at hs
      split at hs
      · rename_i hh; exact h.rx_alive hh
      · cases hs
    cases hm : σ.msgs with
    | nil => exact ⟨_, _, by simp only [Spec.step, hrx, hm, if_true]; rfl⟩
    | cons x l => exact ⟨_, _, by simp only [Spec.step, hrx, hm, if_true]; rfl⟩
  | recv hb =>
    obtain ⟨t, f, f', hs, -, -⟩ := hb
    have hrx : σ.rx = true := by
      simp only [step] at hs
      split at hs
      · rename_i hh; exact h.rx_alive hh
      · cases hs
    cases hm : σ.msgs with
    | nil =>
      cases hcl : σ.closed with
      | true => exact ⟨_, _, by simp only [Spec.step, hrx, hm, hcl, if_true]; rfl⟩
      | false => exact ⟨_, _, by simp only [Spec.step, hrx, hm, hcl, if_true, Bool.false_eq_true, if_false]; rfl⟩
    | cons x l => exact ⟨_, _, by simp only [Spec.step, hrx, hm, if_true]; rfl⟩
  | dropRx hb =>
    obtain ⟨t, f, f', hs, -, -⟩ := hb
    have hrx : σ.rx = true := by
      simp only [step] at hs
      split at hs
      · rename_i hh; exact h.rx_alive hh
      · cases hs
    exact ⟨_, _, if_pos hrx⟩

/-! ## Sequences of calls -/

/-- Every run of a call is the step of the specification. -/
theorem Rel.call_run (hb : c.blocking = false) (hw : WellSized w c.cap) (h : Rel c s σ i σ.keys) (hx : Exec c tr s) {call : Call V W}
    (hr : CallRun c env s i σ.next call s1 e1 j) :
    ∃ σ', σ.step c.cap c.queue.same call = some (σ', obs e1) ∧ Rel c s1 σ' j σ'.keys ∧ σ'.next = σ.next + call.fresh := by
  obtain ⟨σ', o, hs⟩ := h.possible hx hr
  obtain ⟨env', he, hr'⟩ := hr.calm
  obtain ⟨t, f, j', h1, h2, h3, h4⟩ := h.call hb hw he call hs
  obtain ⟨rfl, rfl, rfl⟩ := hr'.det h1
  exact ⟨σ', h2 ▸ hs, h3, h4⟩

theorem Rel.calls_run (hb : c.blocking = false) (hw : WellSized w c.cap) {calls : List (Call V W)} {os : List (List (Obs V W))}
    (hr : CallsRun c env s i k calls s1 e1 os) : ∀ {σ : Spec V W} {tr : Trace V W}, Rel c s σ i σ.keys → σ.next = k → Exec c tr s →
    ∃ σ' j, σ.run c.cap c.queue.same calls = some (σ', os) ∧ Rel c s1 σ' j σ'.keys := by
  induction hr with
  | nil => intro σ tr h _ _; exact ⟨σ, _, rfl, h⟩
  | cons hc _ ih =>
    intro σ tr h hk hx
    subst hk
    obtain ⟨σ1, h1, h2, h3⟩ := h.call_run hb hw hx hc
    obtain ⟨σ2, j, h4, h5⟩ := ih h2 h3 (hc.exec hx)
    exact ⟨σ2, j, by simp only [Spec.run, h1, h4], h5⟩

theorem Rel.calls_total (hb : c.blocking = false) (hw : WellSized w c.cap) (he : env.Calm) (calls : List (Call V W)) :
    ∀ {s : State w V W} {i : Nat} {σ σ' : Spec V W} {os : List (List (Obs V W))}, Rel c s σ i σ.keys →
    σ.run c.cap c.queue.same calls = some (σ', os) → ∃ s' tr, CallsRun c env s i σ.next calls s' tr os := by
  induction calls with
  | nil =>
    intro s i σ σ' os _ hr
    cases hr
    exact ⟨s, [], .nil⟩
  | cons call calls ih =>
    intro s i σ σ' os h hr
    simp only [Spec.run] at hr
    split at hr
    case h_1 => cases hr
    rename_i σ1 o h1
    split at hr
    case h_1 => cases hr
    rename_i σ2 os' h2
    cases hr
    obtain ⟨s1, tr1, j, h3, rfl, h4, h5⟩ := h.call hb hw he call h1
    obtain ⟨s2, tr2, h6⟩ := ih h4 h2
    rw [h5] at h6
    exact ⟨s2, _, .cons h3 h6⟩

end Thingbuf.Chan
