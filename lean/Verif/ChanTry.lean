import Verif.ChanSleep
import Verif.ChanCloseProps

/-!
# What `Full`, `Empty` and `Pending` say

Lemmas for `Verif/ChanTryProps.lean`.
-/

namespace Thingbuf.Chan

variable {w : Nat} {V W : Type} {c : Config W} {tr : Trace V W} {s : State w V W}

/-- Where an element occurs last. -/
theorem last_unique {E : Type} {x : E} {a b a' b' : List E} (h : a ++ x :: b = a' ++ x :: b') (hb : x ∉ b) (hb' : x ∉ b') : a = a' ∧ b = b' := by
  rcases List.append_eq_append_iff.1 h with ⟨l, h5, h6⟩ | ⟨l, h5, h6⟩
  · cases l with
    | nil => simp at h5 h6; exact ⟨h5.symm, h6⟩
    | cons y l => injection h6 with h7 h8; subst h8; exact (hb (by simp)).elim
  · cases l with
    | nil => simp at h5 h6; exact ⟨h5, h6.symm⟩
    | cons y l => injection h6 with h7 h8; subst h8; exact (hb' (by simp)).elim

/-- The results of a pop operation. -/
theorem _root_.Thingbuf.Facts.pop_ret {m : Prop} {cap : Nat} {tr : Thingbuf.Trace V} (h : Facts m w cap tr) {a : OpId} {r : Ret} (hr : .ret a r ∈ tr) (hi : .invoke a .pop ∈ tr) :
    r = .popped ∨ r = .empty ∨ r = .closed := by
  obtain ⟨x, y, hxy⟩ := List.append_of_mem hr
  obtain ⟨-, -, h1⟩ := h.evOk hxy
  have key : ∀ op, Event.invoke a op ∈ x → op = .pop := fun op ho =>
    h.invoke_unique (show Event.invoke a op ∈ tr by rw [hxy]; simp [ho]) hi
  cases r with
  | pushed => cases key _ h1.2
  | full => cases key _ h1.2.2.1
  | closed => simp
  | panicked => cases key _ h1.2
  | popped => simp
  | empty => simp
  | len n => cases key _ h1.2.2.1
  | closeRet b =>
    rcases h1 with h1 | h1
    · cases key _ h1.1
    · cases key _ h1.1
  | crash x => exact h1.2.2.elim

theorem Run.pop_ret (h : Run c tr s) {a : OpId} {r : Ret} (hr : .core (.ret a r) ∈ tr) (hi : .core (.invoke a .pop) ∈ tr) :
    r = .popped ∨ r = .empty ∨ r = .closed := h.core.facts.pop_ret (mem_coreOf.2 hr) (mem_coreOf.2 hi)

/-- A pop operation that found nothing: at some moment since its start the channel was empty, or its oldest message was not completely sent. -/
theorem Run.empty_between {p q : Trace V W} {a : OpId} (h : Run c (p ++ .core (.invoke a .pop) :: q) s)
    (hr : .core (.ret a .empty) ∈ p ++ .core (.invoke a .pop) :: q) :
    ∃ m, m <+: q ∧ ((IsEmpty (coreOf (p ++ .core (.invoke a .pop) :: m)) ∧ ¬ Closed (coreOf (p ++ .core (.invoke a .pop) :: m))) ∨ OldestUncommitted (coreOf (p ++ .core (.invoke a .pop) :: m))) := by
  obtain ⟨x, y, hxy⟩ := List.append_of_mem (mem_coreOf.2 hr)
  obtain ⟨-, mid, h1, ⟨⟨op, h2⟩, -⟩, h3⟩ := C04_empty_truthful h.core hxy
  have hp : mid <+: coreOf (p ++ .core (.invoke a .pop) :: q) := h1.trans ⟨_, hxy.symm⟩
  obtain ⟨m', r', h4', rfl⟩ := coreOf_prefix hp
  have h4 : m' <+: p ++ .core (.invoke a .pop) :: q := ⟨r', h4'.symm⟩
  have hnot : ∀ op, Ev.core (.invoke a op) ∉ p := fun op hc => by
    have := h.core.evOk (pre := coreOf p) (e := .invoke a .pop) (post := coreOf q) (coreOf_append ..)
    exact this.1 ⟨op, mem_coreOf.2 hc⟩
  have h5 : p ++ [.core (.invoke a .pop)] <+: p ++ .core (.invoke a .pop) :: q := ⟨q, by simp⟩
  rcases List.prefix_or_prefix_of_prefix h5 h4 with h6 | h6
  · obtain ⟨m, rfl⟩ := h6
    obtain ⟨r, hr⟩ := h4
    refine ⟨m, ⟨r, ?_⟩, by simpa using h3⟩
    simpa using hr
  · rcases List.prefix_concat_iff.1 h6 with h7 | h7
    · subst h7; exact ⟨[], List.nil_prefix, by simpa using h3⟩
    · exact (hnot op (h7.subset (mem_coreOf.1 h2))).elim

/-! ### Polls -/

theorem Run.pending_between {pre mid post : Trace V W} {v : W} (h : Run c (pre ++ .api (.callPoll v) :: (mid ++ .api (.retPoll .pending) :: post)) s)
    (hm : ∀ u, .api (.callPoll u) ∉ mid) :
    ∃ m, m <+: mid ∧ ((IsEmpty (coreOf (pre ++ .api (.callPoll v) :: m)) ∧ ¬ Closed (coreOf (pre ++ .api (.callPoll v) :: m))) ∨ OldestUncommitted (coreOf (pre ++ .api (.callPoll v) :: m))) := by
  obtain ⟨tr0, l, s0, s1, h0, hl, h1, h2, h3⟩ := h.exec.at_api (pre := pre ++ .api (.callPoll v) :: mid) (e := .retPoll .pending) (post := post) (by simp) (by simp)
  have hrx : ∃ v, s1.rx = .idle (some v) := by
    cases h1 with
    | api hm hl hr hs => cases hm
    | core es1 es2 h1 hm hl hr hs =>
      have hes : Api.retPoll .pending ∈ es1 ++ Api.retPoll .pending :: es2 := by simp
      generalize es1 ++ Api.retPoll .pending :: es2 = es at hm hes
      generalize hret : coreRet _ = ret at hm
      cases hm with
      | pop2Pending a v spur r hrx hr1 hr2 => exact ⟨v, by rw [hs]; rfl⟩
      | _ => simp at hes
    | cell es1 es2 h1 hm hl hr hs =>
      have hes : Api.retPoll .pending ∈ es1 ++ Api.retPoll .pending :: es2 := by simp
      generalize es1 ++ Api.retPoll .pending :: es2 = es at hm hes
      cases hm <;> simp at hes
    | queue es1 es2 h1 hm hl hr hs =>
      have hes : Api.retPoll .pending ∈ es1 ++ Api.retPoll .pending :: es2 := by simp
      generalize es1 ++ Api.retPoll .pending :: es2 = es at hm hes
      cases hm <;> simp at hes
  obtain ⟨u, hrx⟩ := hrx
  have hh := h2.pollHist
  rw [hrx] at hh
  obtain ⟨m2, a, r, ⟨m1, o, hs, -, -, -, -⟩, ha, hra, hr1, hr2⟩ := hh
  have hT : pre ++ .api (.callPoll v) :: mid ++ [.api (.retPoll .pending)] = pre ++ .api (.callPoll v) :: (mid ++ [.api (.retPoll .pending)] : Trace V W) := by simp
  rw [hT] at hs h2
  obtain ⟨-, hmm⟩ := Since.uniq ⟨⟨pre, rfl⟩, by simpa using hm⟩ hs
  have hai : .core (.invoke a .pop) ∈ (mid ++ [.api (.retPoll .pending)] : Trace V W) := by rw [hmm]; simp [ha]
  have hri : .core (.ret a r) ∈ (mid ++ [.api (.retPoll .pending)] : Trace V W) := by rw [hmm]; simp [hra]
  have hrun : Run c (pre ++ .api (.callPoll v) :: (mid ++ [.api (.retPoll .pending)])) s1 :=
    Run.before (l := post) (by simpa using h) h2
  have hr : r = .empty := by
    rcases hrun.pop_ret (a := a) (r := r) (by simp; simpa using Or.inr hri) (by simp; simpa using Or.inr hai) with h | h | h
    · exact (hr1 h).elim
    · exact h
    · exact (hr2 h).elim
  subst hr
  obtain ⟨q1, q2, hq⟩ := List.append_of_mem (show .core (.invoke a .pop) ∈ mid by simpa using hai)
  subst hq
  have e1 : pre ++ .api (.callPoll v) :: (q1 ++ .core (.invoke a .pop) :: q2 ++ [.api (.retPoll .pending)]) =
      (pre ++ .api (.callPoll v) :: q1) ++ .core (.invoke a .pop) :: (q2 ++ [.api (.retPoll .pending)] : Trace V W) := by simp
  rw [e1] at hrun
  obtain ⟨m, hm1, hm2⟩ := hrun.empty_between (by rw [← e1]; simp; simpa using Or.inr hri)
  rcases List.prefix_concat_iff.1 hm1 with h4 | h4
  · subst h4
    refine ⟨q1 ++ .core (.invoke a .pop) :: q2, List.prefix_rfl, ?_⟩
    have e2 : coreOf (pre ++ .api (.callPoll v) :: q1 ++ .core (.invoke a .pop) :: (q2 ++ [.api (.retPoll .pending)]) : Trace V W) =
        coreOf (pre ++ .api (.callPoll v) :: (q1 ++ .core (.invoke a .pop) :: q2)) := by
      rw [show pre ++ .api (.callPoll v) :: q1 ++ .core (.invoke a .pop) :: (q2 ++ [.api (.retPoll .pending)]) =
        (pre ++ .api (.callPoll v) :: (q1 ++ .core (.invoke a .pop) :: q2)) ++ ([.api (.retPoll .pending)] : Trace V W) by simp, coreOf_append]
      exact List.append_nil _
    rwa [e2] at hm2
  · refine ⟨q1 ++ .core (.invoke a .pop) :: m, ?_, by simpa using hm2⟩
    obtain ⟨z, rfl⟩ := h4
    exact ⟨z, by simp⟩

/-! ### `try_recv` -/

def TryHist (tr : Trace V W) : RPC W → Prop
  | .tryPop a _ => ∃ p q, tr = p ++ .core (.invoke a .pop) :: .api .callTry :: q ∧ .api .callTry ∉ q
  | _ => True

theorem TryHist.mono {p : RPC W} {l : Trace V W} (h : TryHist tr p) (hl : .api .callTry ∉ l) : TryHist (tr ++ l) p := by
  cases p with
  | tryPop a _ =>
    obtain ⟨p, q, rfl, hq⟩ := h
    exact ⟨p, q ++ l, by simp, by simp [hq, hl]⟩
  | _ => trivial

theorem ExecM.tryHist {m : Bool} (h : ExecM m c tr s) : TryHist tr s.rx := by
  refine ExecM.ind (P := fun tr s => TryHist tr s.rx) ?_ (fun _ _ _ _ _ ih _ => ih) (fun _ _ _ _ _ ih _ _ => ih) ?_ ?_ ?_ ?_ tr s h
  · trivial
  · intro tr s t e he ih hm
    cases hm
    case poll | dropRx => trivial
    all_goals exact ih.mono (by simp)
  · intro tr s act s1 evs r t es he ih h1 hr hm
    cases hm
    case tryRecv p a hp =>
      obtain ⟨-, rfl⟩ := invoke_idle h1
      exact ⟨tr, [], by simp, by simp⟩
    all_goals first
      | exact ih.mono (by simp)
      | trivial
  · intro tr s act s1 evs t es he ih h1 hm
    cases hm <;> first
      | exact ih.mono (by simp)
      | trivial
  · intro tr s act s1 evs t es he ih h1 hm
    cases hm <;> first
      | exact ih.mono (by simp)
      | trivial

theorem Run.try_between {pre mid post : Trace V W} (h : Run c (pre ++ .api .callTry :: (mid ++ .api (.retTry .empty) :: post)) s)
    (hm : .api .callTry ∉ mid) :
    ∃ m, m <+: mid ∧ ((IsEmpty (coreOf (pre ++ .api .callTry :: m)) ∧ ¬ Closed (coreOf (pre ++ .api .callTry :: m))) ∨ OldestUncommitted (coreOf (pre ++ .api .callTry :: m))) := by
  obtain ⟨tr0, l, s0, s1, h0, hl, h1, h2, h3⟩ := h.exec.at_api (pre := pre ++ .api .callTry :: mid) (e := .retTry .empty) (post := post) (by simp) (by simp)
  have key : ∃ a p r, s0.rx = .tryPop a p ∧ r ≠ .popped ∧ r ≠ .closed ∧ .core (.ret a r) ∈ l ∧ .api .callTry ∉ l := by
    cases h1 with
    | api hm hl hr hs => cases hm
    | core es1 es2 h1 hm hl hr hs =>
      have hes : Api.retTry .empty ∈ es1 ++ Api.retTry .empty :: es2 := by simp
      generalize hes' : es1 ++ Api.retTry .empty :: es2 = es at hm hes
      generalize hret : coreRet _ = ret at hm
      cases hm with
      | tryEmpty a p spur r hrx hr1 hr2 =>
        have := (core_evs h1).ret' _ hret
        rw [actOp_runAct] at this
        have : es1 = [] := by cases es1 <;> simp at hes' ⊢
        subst this
        exact ⟨a, p, r, hrx, hr1, hr2, by rw [hl]; simp [*], by rw [hl]; simp⟩
      | _ => simp at hes
    | cell es1 es2 h1 hm hl hr hs =>
      have hes : Api.retTry .empty ∈ es1 ++ Api.retTry .empty :: es2 := by simp
      generalize es1 ++ Api.retTry .empty :: es2 = es at hm hes
      cases hm <;> simp at hes
    | queue es1 es2 h1 hm hl hr hs =>
      have hes : Api.retTry .empty ∈ es1 ++ Api.retTry .empty :: es2 := by simp
      generalize es1 ++ Api.retTry .empty :: es2 = es at hm hes
      cases hm <;> simp at hes
  obtain ⟨a, p, r, hrx, hr1, hr2, hra, hnt⟩ := key
  have hh := h0.tryHist
  rw [hrx] at hh
  obtain ⟨x, q, rfl, hq⟩ := hh
  have hT : pre ++ .api .callTry :: mid = (x ++ [.core (.invoke a .pop)]) ++ .api .callTry :: (q ++ l) := by rw [hl]; simp
  obtain ⟨rfl, rfl⟩ := last_unique hT hm (by simp [hq, hnt])
  have hrun : Run c (x ++ .core (.invoke a .pop) :: (.api .callTry :: (q ++ l) ++ [.api (.retTry .empty)])) s1 := by
    have := Run.before (l := post) (tr0 := x ++ [.core (.invoke a .pop)] ++ .api .callTry :: (q ++ l) ++ [.api (.retTry .empty)]) (by simpa using h) h2
    simpa using this
  have hr : r = .empty := by
    rcases hrun.pop_ret (a := a) (r := r) (by simp [hra]) (by simp) with h | h | h
    · exact (hr1 h).elim
    · exact h
    · exact (hr2 h).elim
  subst hr
  obtain ⟨m, hm1, hm2⟩ := hrun.empty_between (by simp [hra])
  rcases List.prefix_concat_iff.1 hm1 with h4 | h4
  · subst h4
    refine ⟨q ++ l, List.prefix_rfl, ?_⟩
    have e2 : coreOf (x ++ .core (.invoke a .pop) :: (.api .callTry :: (q ++ l) ++ [.api (.retTry .empty)]) : Trace V W) =
        coreOf (x ++ [.core (.invoke a .pop)] ++ .api .callTry :: (q ++ l)) := by
      rw [show x ++ .core (.invoke a .pop) :: (.api .callTry :: (q ++ l) ++ [.api (.retTry .empty)]) =
        (x ++ [.core (.invoke a .pop)] ++ .api .callTry :: (q ++ l)) ++ ([.api (.retTry .empty)] : Trace V W) by simp, coreOf_append]
      exact List.append_nil _
    rwa [e2] at hm2
  · cases m with
    | nil =>
      refine ⟨[], List.nil_prefix, ?_⟩
      have e2 : coreOf (x ++ [.core (.invoke a .pop)] ++ [.api .callTry] : Trace V W) = coreOf (x ++ [.core (.invoke a .pop)]) := by
        rw [coreOf_append _ [.api .callTry]]; exact List.append_nil _
      rwa [e2]
    | cons e m =>
      obtain ⟨rfl, h5⟩ := List.cons_prefix_cons.1 h4
      exact ⟨m, h5, by simpa using hm2⟩

/-! ### Which calls wait -/

/-- Whether the call was a `send` or a `try_send`, where the control state tells. -/
def Att.waits : Att → Bool
  | .only => false
  | _ => true

def SPC.waits : SPC → Option Bool
  | .push _ att | .retry att => some att.waits
  | .toStart | .starting | .waiting | .toCont | .conting => some true
  | _ => none

/-- Only a call that may wait gets into the parts of `send` that wait. -/
def Kind (s : State w V W) (tr : Trace V W) : Prop := ∀ k b, (s.snd k).waits = some b → ∃ h, .api (.callSend k h b) ∈ tr

theorem Kind.same {t : State w V W} {l : Trace V W} (h : Kind s tr) (ht : t.snd = s.snd) : Kind t (tr ++ l) := by
  intro k b hb
  rw [ht] at hb
  exact (h k b hb).imp fun _ h => List.mem_append_left _ h

theorem Kind.upd {t : State w V W} {l : Trace V W} {j : Nat} {p : SPC} (h : Kind s tr) (ht : t.snd = Thingbuf.upd s.snd j p)
    (hj : ∀ b, p.waits = some b → (s.snd j).waits = some b ∨ ∃ h, .api (.callSend j h b) ∈ l) : Kind t (tr ++ l) := by
  intro k b hb
  rw [ht, upd_apply] at hb
  split at hb
  · rename_i e; subst e
    rcases hj b hb with h1 | ⟨x, h1⟩
    · exact (h _ b h1).imp fun _ h => List.mem_append_left _ h
    · exact ⟨x, List.mem_append_right _ h1⟩
  · exact (h k b hb).imp fun _ h => List.mem_append_left _ h

theorem ExecM.kind {m : Bool} (h : ExecM m c tr s) : Kind s tr := by
  refine ExecM.ind (P := fun tr s => Kind s tr) ?_ (fun _ _ _ _ _ ih _ => ih) (fun _ _ _ _ _ ih _ _ => ih) ?_ ?_ ?_ ?_ tr s h
  · intro k b hb; cases hb
  · intro tr s t e he ih hm
    cases hm <;> first | exact ih.same rfl | exact ih.upd rfl (fun b hb => by cases hb)
  · intro tr s act s1 evs r t es he ih h1 hr hm
    cases hm with
    | send j x wait a r hp hx =>
      refine ih.upd rfl fun b hb => .inr ⟨x, ?_⟩
      have : b = wait := by cases wait <;> cases hb <;> rfl
      subst this; simp
    | _ => first
      | exact ih.same rfl
      | (refine ih.upd rfl ?_
         intro b hb
         first
           | (cases hb; done)
           | (left; simpa [*, SPC.waits, Att.waits] using hb))
  · intro tr s act s1 evs t es he ih h1 hm
    cases hm <;> first | exact ih.same rfl | exact ih.upd rfl (fun b hb => by cases hb)
  · intro tr s act s1 evs t es he ih h1 hm
    cases hm with
    | cont k v evs hp => exact ih.upd rfl (fun b hb => by rcases hp with hp | hp <;> rw [hp] <;> exact .inl hb)
    | _ => first
      | exact ih.same rfl
      | (refine ih.upd rfl ?_
         intro b hb
         first
           | (cases hb; done)
           | (left; simpa [*, SPC.waits, Att.waits] using hb))

/-- A call is one call. -/
theorem ExecM.call_unique {m : Bool} (h : ExecM m c tr s) {k x x' : Nat} {b b' : Bool} (h1 : .api (.callSend k x b) ∈ tr) (h2 : .api (.callSend k x' b') ∈ tr) :
    x = x' ∧ b = b' := by
  rw [← mem_life rfl] at h1 h2
  have hl := h.life k
  cases hp : Chan.life k (apiOf tr) with
  | nil => rw [hp] at h1; cases h1
  | cons e l =>
    rw [hp] at hl h1 h2
    have h3 := hl.tail (x := x) (b := b)
    have h4 := hl.tail (x := x') (b := b')
    rw [List.mem_cons] at h1 h2
    have h1 := h1.resolve_right h3
    have h2 := h2.resolve_right h4
    rw [← h1] at h2
    cases h2; exact ⟨rfl, rfl⟩

/-- When `try_send` returns `Full`, every slot is taken. On any memory. -/
theorem ExecM.ret_full {m : Bool} {mm : Prop} (h : ExecM m c tr s) (hf : Facts mm w c.cap (coreOf tr)) {pre post : Trace V W} {k : Nat} (htr : tr = pre ++ .api (.retSend k .full) :: post) :
    (∃ z, .api (.callSend k z false) ∈ pre) ∧ nRes (coreOf pre) = nDeq (coreOf pre) + c.cap := by
  obtain ⟨tr0, l, s0, s1, h0, rfl, h1, h2, h3⟩ := h.at_api (e := .retSend k .full) htr (by simp)
  cases h1 with
  | api hm hl hr hs => cases hm
  | @core _ _ evs _ es1 es2 h1 hm hl hr hs =>
    have hes : Api.retSend k .full ∈ es1 ++ Api.retSend k .full :: es2 := by simp
    generalize es1 ++ Api.retSend k .full :: es2 = es at hm hes
    generalize hret : coreRet _ = ret at hm
    have hev := core_evs h1
    cases hm with
    | fullOnly k' a i hp =>
      simp at hes
      subst hes
      obtain ⟨z, hz⟩ := h0.kind k false (by rw [hp]; rfl)
      refine ⟨⟨z, List.mem_append_left _ hz⟩, ?_⟩
      have hc : coreOf (tr0 ++ l) = coreOf tr0 ++ evs := by rw [hl]; simp
      have hc' : coreOf tr = coreOf tr0 ++ evs ++ coreOf post := by rw [htr, coreOf_append, hc]; rfl
      obtain ⟨x, y, hxy⟩ := List.append_of_mem (hev.ret' _ hret)
      have h4 := (hf.full_truthful (pre := coreOf tr0 ++ x) (post := y ++ coreOf post) (a := actOp (i.act a)) (by rw [hc', hxy]; simp)).2.2
      have h5 : deqOps evs = [] := by rw [hev.deq, hret]; rfl
      have h6 : resOps evs = [] := by
        apply List.eq_nil_iff_forall_not_mem.2
        intro b hb
        obtain ⟨i, hi⟩ := mem_resOps.1 hb
        have := (hev.res b i hi).2.2
        rw [hret] at this; cases this
      rw [hxy] at h5 h6
      simp only [deqOps_append, resOps_append, List.append_eq_nil_iff] at h5 h6
      rw [hc, hxy, ← List.append_assoc, nRes, nDeq, resOps_append, deqOps_append, h5.2, h6.2, List.append_nil, List.append_nil]
      exact h4
    | _ => simp at hes
  | cell es1 es2 h1 hm hl hr hs =>
    have hes : Api.retSend k .full ∈ es1 ++ Api.retSend k .full :: es2 := by simp
    generalize es1 ++ Api.retSend k .full :: es2 = es at hm hes
    cases hm <;> simp at hes
  | queue es1 es2 h1 hm hl hr hs =>
    have hes : Api.retSend k .full ∈ es1 ++ Api.retSend k .full :: es2 := by simp
    generalize es1 ++ Api.retSend k .full :: es2 = es at hm hes
    cases hm <;> simp at hes

theorem Run.ret_full (h : Run c tr s) {pre post : Trace V W} {k : Nat} (htr : tr = pre ++ .api (.retSend k .full) :: post) :
    (∃ z, .api (.callSend k z false) ∈ pre) ∧ nRes (coreOf pre) = nDeq (coreOf pre) + c.cap := h.exec.ret_full h.core.facts htr

/-- Only `send` waits. -/
theorem ExecM.sleep_kind {m : Bool} (h : ExecM m c tr s) {k : Nat} (hs : .api (.sleep k) ∈ tr) : ∃ z, .api (.callSend k z true) ∈ tr := by
  obtain ⟨pre, post, htr⟩ := List.append_of_mem hs
  obtain ⟨tr0, l, s0, s1, h0, rfl, h1, h2, h3⟩ := h.at_api (e := .sleep k) htr (by simp)
  have key : s1.snd k = .waiting → ∃ z, .api (.callSend k z true) ∈ tr := fun hw => by
    obtain ⟨z, hz⟩ := h2.kind k true (by rw [hw]; rfl)
    refine ⟨z, ?_⟩
    rw [htr, show tr0 ++ l ++ .api (.sleep k) :: post = tr0 ++ l ++ [.api (.sleep k)] ++ post by simp]
    exact List.mem_append_left _ hz
  cases h1 with
  | api hm hl hr hs => cases hm
  | core es1 es2 h1 hm hl hr hs =>
    have hes : Api.sleep k ∈ es1 ++ Api.sleep k :: es2 := by simp
    generalize es1 ++ Api.sleep k :: es2 = es at hm hes
    generalize hret : coreRet _ = ret at hm
    cases hm <;> simp at hes
  | cell es1 es2 h1 hm hl hr hs =>
    have hes : Api.sleep k ∈ es1 ++ Api.sleep k :: es2 := by simp
    generalize es1 ++ Api.sleep k :: es2 = es at hm hes
    cases hm <;> simp at hes
  | queue es1 es2 h1 hm hl hr hs =>
    have hes : Api.sleep k ∈ es1 ++ Api.sleep k :: es2 := by simp
    generalize es1 ++ Api.sleep k :: es2 = es at hm hes
    cases hm <;> simp at hes
    all_goals
      subst hes
      exact key (by rw [hs]; exact upd_self ..)

end Thingbuf.Chan
