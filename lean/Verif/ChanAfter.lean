import Verif.ChanClose
import Verif.QueueProps
import Verif.CoreProps

/-!
# What happens after an event

Executions that continue from a state, and what follows the drop of the receiver.
-/

namespace Thingbuf.Chan

variable {w : Nat} {V W : Type} {c : Config W} {tr : Trace V W} {s : State w V W}

/-- From `s0`, the events `tr` lead to `s`. -/
inductive StepsM (m : Bool) (c : Config W) (s0 : State w V W) : Trace V W → State w V W → Prop where
  | refl : StepsM m c s0 [] s0
  | step {tr : Trace V W} {s s' : State w V W} {act : Act V W} {evs : Trace V W} :
      StepsM m c s0 tr s → step c s act = some (s', evs) → StepsM m c s0 (tr ++ evs) s'
  | stale {tr : Trace V W} {s : State w V W} {t : Queue.Tid} {p : Queue.PC W} (hm : m = true) :
      StepsM m c s0 tr s → Queue.Stale s.queue t p → StepsM m c s0 tr { s with queue := s.queue.goto t p }
  | mem {tr : Trace V W} {s : State w V W} (core : Thingbuf.State w V) (cell : Cell.State W) (hm : m = true) :
      StepsM m c s0 tr s → core.pc = s.core.pc → cell.pc = s.cell.pc → StepsM m c s0 tr { s with core := core, cell := cell }

abbrev Steps (c : Config W) (s0 : State w V W) : Trace V W → State w V W → Prop := StepsM false c s0

theorem StepsM.exec {m : Bool} {s0 : State w V W} {pre : Trace V W} (h0 : ExecM m c pre s0) (h : StepsM m c s0 tr s) : ExecM m c (pre ++ tr) s := by
  induction h with
  | refl => simpa using h0
  | step _ hs ih => rw [← List.append_assoc]; exact ih.step hs
  | stale hm _ hs ih => exact ih.stale hm hs
  | mem core cell hm _ h1 h2 ih => exact ih.mem core cell hm h1 h2

/-- Induction over continued executions. -/
theorem StepsM.ind {m : Bool} {s0 : State w V W} {pre : Trace V W} (h0 : ExecM m c pre s0) {P : Trace V W → State w V W → Prop} (init : P [] s0)
    (stale : ∀ tr s t p, ExecM m c (pre ++ tr) s → P tr s → Queue.Stale s.queue t p → P tr { s with queue := s.queue.goto t p })
    (mem : ∀ tr s core cell, ExecM m c (pre ++ tr) s → P tr s → core.pc = s.core.pc → cell.pc = s.cell.pc →
      P tr { s with core := core, cell := cell })
    (api : ∀ tr s t e, ExecM m c (pre ++ tr) s → P tr s → ApiMove c s t e → ExecM m c (pre ++ tr ++ [.api e]) t → P (tr ++ [.api e]) t)
    (core : ∀ tr s act s1 evs r t es, ExecM m c (pre ++ tr) s → P tr s → Thingbuf.step c.cap s.core act = some (s1, evs) →
      coreRet evs = r → CoreMove c s act r t es → ExecM m c (pre ++ tr ++ (evs.map .core ++ es.map .api)) { t with core := s1 } →
        P (tr ++ (evs.map .core ++ es.map .api)) { t with core := s1 })
    (cell : ∀ tr s act s1 evs t es, ExecM m c (pre ++ tr) s → P tr s → Cell.step c.cell s.cell act = some (s1, evs) →
      CellMove c s act evs t es → ExecM m c (pre ++ tr ++ (evs.map .cell ++ es.map .api)) { t with cell := s1 } →
        P (tr ++ (evs.map .cell ++ es.map .api)) { t with cell := s1 })
    (queue : ∀ tr s act s1 evs t es, ExecM m c (pre ++ tr) s → P tr s → Queue.step c.queue s.queue act = some (s1, evs) →
      QueueMove c s act evs t es → ExecM m c (pre ++ tr ++ (evs.map .queue ++ es.map .api)) { t with queue := s1 } →
        P (tr ++ (evs.map .queue ++ es.map .api)) { t with queue := s1 })
    (tr : Trace V W) (s : State w V W) (h : StepsM m c s0 tr s) : P tr s := by
  induction h with
  | refl => exact init
  | stale _ h hs ih => exact stale _ _ _ _ (StepsM.exec h0 h) ih hs
  | mem _ _ _ h h1 h2 ih => exact mem _ _ _ _ (StepsM.exec h0 h) ih h1 h2
  | step h hs ih =>
    have he := StepsM.exec h0 h
    have he' := he.step hs
    cases step_tr hs with
    | api hm => exact api _ _ _ _ he ih hm he'
    | core h1 hm => exact core _ _ _ _ _ _ _ _ he ih h1 rfl hm he'
    | cell h1 hm => exact cell _ _ _ _ _ _ _ he ih h1 hm he'
    | queue h1 hm => exact queue _ _ _ _ _ _ _ he ih h1 hm he'

/-- Induction over continued executions in which every access reads the last value. -/
theorem Steps.ind {s0 : State w V W} {pre : Trace V W} (h0 : Exec c pre s0) {P : Trace V W → State w V W → Prop} (init : P [] s0)
    (api : ∀ tr s t e, Exec c (pre ++ tr) s → P tr s → ApiMove c s t e → Exec c (pre ++ tr ++ [.api e]) t → P (tr ++ [.api e]) t)
    (core : ∀ tr s act s1 evs r t es, Exec c (pre ++ tr) s → P tr s → Thingbuf.step c.cap s.core act = some (s1, evs) →
      coreRet evs = r → CoreMove c s act r t es → Exec c (pre ++ tr ++ (evs.map .core ++ es.map .api)) { t with core := s1 } →
        P (tr ++ (evs.map .core ++ es.map .api)) { t with core := s1 })
    (cell : ∀ tr s act s1 evs t es, Exec c (pre ++ tr) s → P tr s → Cell.step c.cell s.cell act = some (s1, evs) →
      CellMove c s act evs t es → Exec c (pre ++ tr ++ (evs.map .cell ++ es.map .api)) { t with cell := s1 } →
        P (tr ++ (evs.map .cell ++ es.map .api)) { t with cell := s1 })
    (queue : ∀ tr s act s1 evs t es, Exec c (pre ++ tr) s → P tr s → Queue.step c.queue s.queue act = some (s1, evs) →
      QueueMove c s act evs t es → Exec c (pre ++ tr ++ (evs.map .queue ++ es.map .api)) { t with queue := s1 } →
        P (tr ++ (evs.map .queue ++ es.map .api)) { t with queue := s1 })
    (tr : Trace V W) (s : State w V W) (h : Steps c s0 tr s) : P tr s := by
  induction h with
  | refl => exact init
  | stale hm => cases hm
  | mem _ _ hm => cases hm
  | step h hs ih =>
    have he : Exec c _ _ := StepsM.exec h0 h
    have he' := Exec.step he hs
    cases step_tr hs with
    | api hm => exact api _ _ _ _ he ih hm he'
    | core h1 hm => exact core _ _ _ _ _ _ _ _ he ih h1 rfl hm he'
    | cell h1 hm => exact cell _ _ _ _ _ _ _ he ih h1 hm he'
    | queue h1 hm => exact queue _ _ _ _ _ _ _ he ih h1 hm he'

/-- The step an event belongs to, and what follows. -/
theorem ExecM.at' {m : Bool} (h : ExecM m c tr s) {pre post : Trace V W} {e : Ev V W} (htr : tr = pre ++ e :: post) :
    ∃ (tr0 : Trace V W) (s0 s1 : State w V W) (l r rest : Trace V W), ExecM m c tr0 s0 ∧ Tr c s0 s1 (l ++ e :: r) ∧ ExecM m c (tr0 ++ (l ++ e :: r)) s1 ∧ pre = tr0 ++ l ∧
      post = r ++ rest ∧ StepsM m c s1 rest s := by
  induction h generalizing post with
  | init => simp at htr
  | stale hm _ hs ih =>
    obtain ⟨tr0, s0, s1, l, r, rest, h3, h4, h5, h6, h7, h8⟩ := ih htr
    exact ⟨tr0, s0, s1, l, r, rest, h3, h4, h5, h6, h7, h8.stale hm hs⟩
  | mem core cell hm _ h1 h2 ih =>
    obtain ⟨tr0, s0, s1, l, r, rest, h3, h4, h5, h6, h7, h8⟩ := ih htr
    exact ⟨tr0, s0, s1, l, r, rest, h3, h4, h5, h6, h7, h8.mem core cell hm h1 h2⟩
  | @step tr s s' act evs h hs ih =>
    rcases append_split htr with ⟨post', h1, h2⟩ | ⟨e1, h1, h2⟩
    · obtain ⟨tr0, s0, s1, l, r, rest, h3, h4, h5, h6, h7, h8⟩ := ih h2
      exact ⟨tr0, s0, s1, l, r, rest ++ evs, h3, h4, h5, h6, by rw [h1, h7]; simp, h8.step hs⟩
    · have ht := step_tr hs
      have he := h.step hs
      rw [h1] at ht he
      exact ⟨tr, s, s', e1, post, [], h, ht, he, h2, by simp, .refl⟩

/-- The state right after the last API event of a step. -/
theorem ExecM.at_api {m : Bool} (h : ExecM m c tr s) {pre post : Trace V W} {e : Api W} (htr : tr = pre ++ .api e :: post)
    (he : ∀ k x b, e ≠ .callSend k x b) : ∃ (tr0 l : Trace V W) (s0 s1 : State w V W), ExecM m c tr0 s0 ∧ pre = tr0 ++ l ∧ ApiStep c s0 s1 l e [] ∧
      ExecM m c (pre ++ [.api e]) s1 ∧ StepsM m c s1 post s := by
  obtain ⟨tr0, s0, s1, l, r, rest, h1, h2, h3, rfl, rfl, h4⟩ := h.at' htr
  have : r = [] := by
    cases h2.apiStep rfl with
    | api hm hl hr hs => exact hr
    | core es1 es2 h1 hm hl hr hs =>
      rw [hr]
      generalize hes : es1 ++ e :: es2 = es at hm
      generalize hret : coreRet _ = ret at hm
      cases hm
      all_goals first
        | (have := congrArg List.length hes; simp at this; done)
        | (have := congrArg List.length hes; simp at this; rw [List.eq_nil_of_length_eq_zero (by omega : es2.length = 0)]; rfl)
        | skip
      cases es1 with
      | nil => simp at hes; exact absurd hes.1 (he _ _ _)
      | cons x es1 =>
        have := congrArg List.length hes; simp at this; rw [List.eq_nil_of_length_eq_zero (by omega : es2.length = 0)]; rfl
    | cell es1 es2 h1 hm hl hr hs =>
      rw [hr]
      generalize hes : es1 ++ e :: es2 = es at hm
      cases hm
      all_goals first
        | (have := congrArg List.length hes; simp at this; done)
        | (have := congrArg List.length hes; simp at this; rw [List.eq_nil_of_length_eq_zero (by omega : es2.length = 0)]; rfl)
    | queue es1 es2 h1 hm hl hr hs =>
      rw [hr]
      generalize hes : es1 ++ e :: es2 = es at hm
      cases hm
      all_goals first
        | (have := congrArg List.length hes; simp at this; done)
        | (have := congrArg List.length hes; simp at this; rw [List.eq_nil_of_length_eq_zero (by omega : es2.length = 0)]; rfl)
  subst this
  exact ⟨tr0, l, s0, s1, h1, rfl, h2.apiStep rfl, by simpa using h3, by simpa using h4⟩

/-- The ring buffer is closed only by the drop of the receiver or of the last sender. -/
theorem ExecM.closed_by {m : Bool} {mm : Prop} (h : ExecM m c tr s) (hf : Facts mm w c.cap (coreOf tr)) (hc : Closed (coreOf tr)) : .api (.dropRx false) ∈ tr ∨ LastDrop tr false := by
  obtain ⟨b, hb⟩ := hc
  obtain ⟨x, y, hxy⟩ := List.append_of_mem hb
  have h1 : Event.invoke b (.close false) ∈ coreOf tr := by
    have := hf.evOk hxy
    rw [hxy]
    simp only [EvOk] at this
    simp [this]
  rw [mem_coreOf] at h1
  have h2 := h.clInv.hist
  cases hcl : s.closer <;> rw [hcl] at h2 <;> simp only [ClHist] at h2
  case none => rcases h2.2 _ _ h1 with h3 | h3 <;> first | (cases h3; done) | exact .inl h3
  case toClose => rcases h2.2 _ _ h1 with h3 | h3 <;> first | (cases h3; done) | exact .inl h3
  case closing a =>
    obtain ⟨pan, h3, h4, h5⟩ := h2
    rcases h4 _ _ h1 with h6 | h6
    · cases h6
      have := hf.invoke_unique (mem_coreOf.2 h1) (mem_coreOf.2 h5)
      cases this
      exact .inr h3.1
    · exact .inl h6
  case toCloseTx =>
    obtain ⟨pan, a, b, h3, h4, h5, -⟩ := h2
    rcases h4 _ _ h1 with h6 | h6
    · cases h6
      have := hf.invoke_unique (mem_coreOf.2 h1) (mem_coreOf.2 h5)
      cases this
      exact .inr h3.1
    · exact .inl h6
  case closeTx =>
    obtain ⟨pan, a, b, h3, h4, h5, -⟩ := h2
    rcases h4 _ _ h1 with h6 | h6
    · cases h6
      have := hf.invoke_unique (mem_coreOf.2 h1) (mem_coreOf.2 h5)
      cases this
      exact .inr h3.1
    · exact .inl h6
  case done =>
    obtain ⟨pan, a, b, h3, h4, h5, -⟩ := h2
    rcases h4 _ _ h1 with h6 | h6
    · cases h6
      have := hf.invoke_unique (mem_coreOf.2 h1) (mem_coreOf.2 h5)
      cases this
      exact .inr h3.1
    · exact .inl h6

theorem Run.closed_by (h : Run c tr s) (hc : Closed (coreOf tr)) : .api (.dropRx false) ∈ tr ∨ LastDrop tr false := h.exec.closed_by h.core.facts hc

/-- While a send call is active there is no drop of the last sender. -/
theorem ExecM.no_lastDrop {m : Bool} (h : ExecM m c tr s) (hh : s.handles ≠ []) (pan : Bool) : ¬ LastDrop tr pan := by
  have := h.clInv.hist
  rw [h.hinv.closer.2 hh] at this
  exact this.1 pan

theorem ExecM.active_handles {m : Bool} (h : ExecM m c tr s) {k : Nat} (hk : (s.snd k).active = true) : s.handles ≠ [] := by
  obtain ⟨x, hx⟩ := (h.hinv.act k).1 hk
  intro e
  have := h.hinv.calls _ hx
  rw [e] at this; cases this

theorem _root_.Thingbuf.Queue.ExecM.closing_called {W : Type} {c : Queue.Config W} {tr : Queue.Trace W} {s : Queue.State W} {m : Bool} (h : Queue.ExecM m c tr s) {o : Nat}
    (hc : .closing o ∈ tr) : .callClose o ∈ tr := by
  have ho := h.opHist o
  rw [← Queue.mem_opEvs (o := o) rfl] at hc ⊢
  unfold Queue.OpHist at ho
  split at ho
  all_goals first
    | (simp_all; done)
    | (obtain ⟨l, ho⟩ := ho; rw [ho]; simp; done)
    | skip
  rcases ho with ho | ⟨n, v, ho⟩ | ⟨ho, hd⟩ | ⟨l, ho⟩
  · simp [ho] at hc
  · simp [ho] at hc
  · simp [ho] at hc
  · rw [ho]; simp

/-- The receiver has called `core.close()`. -/
def RPC.pastClose : RPC W → Bool
  | .closing _ | .toQClose | .qclose _ | .gone => true
  | _ => false

/-- Only one `core.close()` is called before the last sender is dropped. -/
structure CloseUniq (s : State w V W) (tr : Trace V W) : Prop where
  past : s.closer = .none → ∀ a p, .core (.invoke a (.close p)) ∈ tr → s.rx.pastClose = true
  uniq : s.closer = .none → ∀ a p b q, .core (.invoke a (.close p)) ∈ tr → .core (.invoke b (.close q)) ∈ tr → a = b

theorem CloseUniq.same {t : State w V W} {evs : Trace V W} (h : CloseUniq s tr)
    (hc : ∀ a p, .core (.invoke a (.close p)) ∉ evs) (h1 : t.closer = .none → s.closer = .none)
    (h2 : s.rx.pastClose = true → t.rx.pastClose = true) : CloseUniq t (tr ++ evs) where
  past hn a p ha := h2 (h.past (h1 hn) a p ((List.mem_append.1 ha).resolve_right (hc a p)))
  uniq hn a p b q ha hb := h.uniq (h1 hn) a p b q ((List.mem_append.1 ha).resolve_right (hc a p)) ((List.mem_append.1 hb).resolve_right (hc b q))

theorem ExecM.closeUniq {m : Bool} (h : ExecM m c tr s) : CloseUniq s tr := by
  refine ExecM.ind (P := fun tr s => CloseUniq s tr) ?_ (fun _ _ _ _ _ ih _ => ⟨ih.past, ih.uniq⟩) (fun _ _ _ _ _ ih _ _ => ⟨ih.past, ih.uniq⟩) ?_ ?_ ?_ ?_ tr s h
  · exact ⟨by simp, by simp⟩
  · intro tr s t e he ih hm
    cases hm
    case poll p v hp => exact ih.same (by simp) (fun h => h) (by simp [hp, RPC.pastClose])
    case dropRx p pan hp hr => exact ih.same (by simp) (fun h => h) (by simp [hp, RPC.pastClose])
    case dropLast => exact ih.same (by simp) (by simp) (fun h => h)
    all_goals exact ih.same (by simp) (fun h => h) (fun h => h)
  · intro tr s act s1 evs r t es he ih h1 hr hm
    have hev := core_evs h1
    cases hm
    case rxClose pan o hp =>
      have h0 : s.closer = .none → ∀ a p, Ev.core (.invoke a (.close p)) ∉ tr := fun hn a p ha => by
        have := ih.past hn a p ha; rw [hp] at this; cases this
      refine ⟨fun _ _ _ _ => rfl, fun hn a p b q ha hb => ?_⟩
      have h2 := (List.mem_append.1 ha).resolve_left (h0 hn a p)
      have h3 := (List.mem_append.1 hb).resolve_left (h0 hn b q)
      simp [hev.inv] at h2 h3
      rw [← h2.1, ← h3.1]
    case cCall pan o hp => exact ⟨by simp, by simp⟩
    all_goals first
      | exact ih.same (by simp [hev.inv]) (fun h => h) (fun h => h)
      | (refine ih.same (by simp [hev.inv]) (fun h => h) ?_; simp [‹s.rx = _›, RPC.pastClose, State.rgoto]; done)
      | exact ⟨by simp, by simp⟩
  · intro tr s act s1 evs t es he ih h1 hm
    cases hm
    all_goals first
      | exact ih.same (by simp) (fun h => h) (fun h => h)
      | (refine ih.same (by simp) (fun h => h) ?_; simp [‹s.rx = _›, RPC.pastClose, State.rgoto]; done)
      | exact ⟨by simp, by simp⟩
  · intro tr s act s1 evs t es he ih h1 hm
    cases hm
    all_goals first
      | exact ih.same (by simp) (fun h => h) (fun h => h)
      | exact ih.same (by simp) (fun h => h) (fun _ => rfl)

/-- When the receiver has been dropped, the channel is closed; and the wait queue too if there still is a sender. On any memory. -/
theorem ExecM.rx_closed {m : Bool} {mm : Prop} (h : ExecM m c tr s) (hf : Facts mm w c.cap (coreOf tr)) (hg : s.rx = .gone) (hp : .api (.dropRx true) ∉ tr) :
    Closed (coreOf tr) ∧ (s.closer = .none → ∃ o, .retClose o ∈ queueOf tr) := by
  have hi := h.rxInv.hist
  rw [hg] at hi
  obtain ⟨pan, a, b, h1, h2, h3, h4⟩ := hi
  have hpan : pan = false := by
    cases pan
    · rfl
    · exact absurd h1.1 hp
  subst hpan
  obtain ⟨x, y, hxy⟩ := List.append_of_mem (mem_coreOf.2 h3)
  obtain ⟨-, -, h5⟩ := hf.evOk hxy
  have h6 : Event.invoke a (.close true) ∉ x := fun hm => by
    have := hf.invoke_unique (a := a) (op := .close true) (op' := .close false) (by rw [hxy]; simp [hm]) (mem_coreOf.2 h2)
    cases this
  rcases h5 with ⟨h5, -⟩ | ⟨-, x0, rfl, h7⟩
  · exact absurd h5 h6
  refine ⟨⟨a, by rw [hxy]; simp⟩, fun hn => ?_⟩
  -- somebody's `close` was the first, and the receiver's is the only one
  obtain ⟨a', h8⟩ := hf.invY.closed ⟨a, by rw [hxy]; simp⟩
  obtain ⟨x', y', hxy'⟩ := List.append_of_mem h8
  obtain ⟨-, -, h9⟩ := hf.evOk hxy'
  have h10 : Event.invoke a' (.close false) ∈ coreOf tr := by
    rcases h9 with ⟨-, h9⟩ | ⟨h9, -⟩
    · cases h9
    · rw [hxy']; simp [h9]
  have h11 := h.closeUniq.uniq hn _ _ _ _ (mem_coreOf.1 h10) h2
  subst h11
  have hb : b = true := by
    have := hf.ret_unique h8 (mem_coreOf.2 h3)
    cases this; rfl
  obtain ⟨o, ho⟩ := h4 hb
  refine ⟨o, ?_⟩
  have hq := h.queue
  have hk := h.queueOwns
  have hop := hq.opHist o
  have hcall := mem_queueOf.2 ho
  rw [← Queue.mem_opEvs (o := o) rfl] at hcall ⊢
  have hnone : queueKind (s.queue.pc (.op o)) ≠ some .close := by
    intro hkk
    obtain ⟨x, hx⟩ := hk.cov o .close hkk
    cases x <;> simp [queueClaim, claimOf, sndQueue, closerQueue, rxQueue, hg] at hx
    rename_i r
    generalize s.ref r = q at hx
    cases q <;> simp [refQueue] at hx
  generalize s.queue.pc (.op o) = q at hop hnone
  cases q <;> simp only [Queue.OpHist] at hop
  all_goals first
    | (simp [queueKind] at hnone; done)
    | (rw [hop] at hcall; simp at hcall; done)
    | (rw [hop.1] at hcall; simp at hcall; done)
    | skip
  case done =>
    rcases hop with hop | ⟨n, v, hop⟩ | ⟨hop, -⟩ | ⟨l, hop⟩
    · rw [hop] at hcall; simp at hcall
    · rw [hop] at hcall; simp at hcall
    · rw [hop] at hcall; simp at hcall
    · rw [hop]; simp
  all_goals
    rename_i v
    rcases v with _ | ⟨n, v⟩ <;> simp only [Queue.OpHist] at hop
    · rw [hop.1] at hcall; simp at hcall
    · rw [hop] at hcall; simp at hcall

theorem Run.rx_gone (h : Run c tr s) (hg : s.rx = .gone) (hp : .api (.dropRx true) ∉ tr) :
    Closed (coreOf tr) ∧ (s.closer = .none → ∃ o, .retClose o ∈ queueOf tr) := h.exec.rx_closed h.core.facts hg hp

/-! ### Send calls after the channel is closed -/

/-- What is known, some time after the ring buffer was closed, of a send call that was not in `push_ref` then. -/
structure Late (post : Trace V W) (k : Nat) (p : SPC) : Prop where
  ret : ∀ r, .api (.retSend k r) ∈ post → r = .closed ∨ r = .timeout
  push : ∀ a att, p = .push a att → .core (.invoke a .push) ∈ post
  held : p.over = true → p = .done

theorem Late.same {post evs : Trace V W} {k : Nat} {p : SPC} (h : Late post k p) (hn : ∀ r, .api (.retSend k r) ∉ evs) : Late (post ++ evs) k p :=
  ⟨fun r hr => h.ret r ((List.mem_append.1 hr).resolve_right (hn r)), fun a att hp => List.mem_append_left _ (h.push a att hp), h.held⟩

theorem Late.move {post evs : Trace V W} {k : Nat} {p q : SPC} (h : Late post k p) (hn : ∀ r, .api (.retSend k r) ∈ evs → r = .closed ∨ r = .timeout)
    (hp : ∀ a att, q = .push a att → .core (.invoke a .push) ∈ evs) (hh : q.over = true → q = .done) : Late (post ++ evs) k q :=
  ⟨fun r hr => (List.mem_append.1 hr).elim (h.ret r) (hn r), fun a att he => List.mem_append_right _ (hp a att he), hh⟩

/-- The control states of a call that is made after the ring buffer was closed. -/
def SPC.fresh : SPC → Bool
  | .off | .push _ _ | .done => true
  | _ => false

structure LateInv (f : Bool) (post : Trace V W) (k : Nat) (p : SPC) : Prop extends Late post k p where
  fresh : f = true → p.fresh = true ∧ .api (.sleep k) ∉ post
  intime : f = true → .api (.retSend k .timeout) ∉ post

theorem LateInv.same {f : Bool} {post evs : Trace V W} {k : Nat} {p : SPC} (h : LateInv f post k p) (hn : ∀ r, .api (.retSend k r) ∉ evs)
    (hs : .api (.sleep k) ∉ evs) : LateInv f (post ++ evs) k p :=
  ⟨h.toLate.same hn, fun hf => ⟨(h.fresh hf).1, fun hm => (List.mem_append.1 hm).elim (h.fresh hf).2 hs⟩,
    fun hf hm => (List.mem_append.1 hm).elim (h.intime hf) (hn _)⟩

theorem LateInv.move {f : Bool} {post evs : Trace V W} {k : Nat} {p q : SPC} (h : LateInv f post k p) (hn : ∀ r, .api (.retSend k r) ∈ evs → r = .closed)
    (hp : ∀ a att, q = .push a att → .core (.invoke a .push) ∈ evs) (hh : q.over = true → q = .done)
    (hf : p.fresh = true → q.fresh = true ∧ .api (.sleep k) ∉ evs) : LateInv f (post ++ evs) k q :=
  ⟨h.toLate.move (fun r hr => .inl (hn r hr)) hp hh,
    fun hff => ⟨(hf (h.fresh hff).1).1, fun hm => (List.mem_append.1 hm).elim (h.fresh hff).2 (hf (h.fresh hff).1).2⟩,
    fun hff hm => (List.mem_append.1 hm).elim (h.intime hff) fun hm => by cases hn _ hm⟩

theorem LateInv.timeout {f : Bool} {post evs : Trace V W} {k : Nat} {p q : SPC} (h : LateInv f post k p) (hp : p.fresh = false)
    (hn : ∀ r, .api (.retSend k r) ∈ evs → r = .timeout) (hq : q = .done) : LateInv f (post ++ evs) k q := by
  subst hq
  have hf : f ≠ true := fun hf => by have := (h.fresh hf).1; rw [hp] at this; cases this
  exact ⟨h.toLate.move (fun r hr => .inr (hn r hr)) (by simp) (fun _ => rfl), fun e => absurd e hf, fun e => absurd e hf⟩

theorem nodeRet_panicked {evs : List (Queue.Event W)} (h : nodeRet evs = some .panicked) : ∃ t, .assertFailed t ∈ evs := by
  unfold nodeRet at h
  obtain ⟨e, he, h1⟩ := List.exists_of_findSome?_eq_some h
  cases e <;> simp at h1
  exact ⟨_, he⟩

theorem nodeRet_freed {evs : List (Queue.Event W)} (h : nodeRet evs = some .freed) : ∃ t, .free t ∈ evs := by
  unfold nodeRet at h
  obtain ⟨e, he, h1⟩ := List.exists_of_findSome?_eq_some h
  cases e <;> simp at h1
  exact ⟨_, he⟩

/-- `start_wait` and `continue_wait` do not panic. -/
theorem ExecM.node_ret {m : Bool} (h : ExecM m c tr s) {k : Nat} {spur : Bool} {s1 : Queue.State W} {evs : List (Queue.Event W)}
    (h1 : Queue.step c.queue s.queue (.node k spur) = some (s1, evs)) (hk : s.snd k = .starting ∨ s.snd k = .conting) {r : NodeRes}
    (hr : nodeRet evs = some r) : ∃ r', r = .ret r' := by
  have hn := h.nodesOk k
  have hx : NodeNext (s.queue.pc (.node k)) evs (s1.pc (.node k)) := (queue_next h1).2
  cases r with
  | ret r' => exact ⟨r', rfl⟩
  | freed =>
    rcases hk with hk | hk <;> rw [hk] at hn <;> simp only [nodeOk] at hn
    · have := hx.1 hn; rw [hr] at this; exact this.elim
    · have := hx.2.1 hn; rw [hr] at this; exact this.elim
  | panicked =>
    exfalso
    obtain ⟨t, ht⟩ := nodeRet_panicked hr
    obtain ⟨x, y, hxy⟩ := List.append_of_mem ht
    obtain ⟨o, ho, -⟩ := (h.queue.step h1).evOk (queueOf tr ++ x) (.assertFailed t) y (by rw [hxy]; simp)
    have := (queue_evs h1).fail t ht
    rw [ho] at this; cases this

/-- A push operation that was called after the ring buffer was closed returns `Closed`. -/
theorem Run.late_push {pre post : Trace V W} {l : Trace V W} {evs : List (Event V)} (h : Run c (pre ++ (post ++ (evs.map .core ++ l))) s) (hc : Closed (coreOf pre)) {a : OpId}
    (ha : .core (.invoke a .push) ∈ post) {r : Ret} (hr : .ret a r ∈ evs) : r = .closed := by
  obtain ⟨x, y, hxy⟩ := List.append_of_mem ha
  obtain ⟨b, hb⟩ := hc
  refine (C12_close_final h.core).2.1 (coreOf pre ++ coreOf x) a (coreOf y ++ (evs ++ coreOf l)) r ?_ ⟨b, by simp [hb]⟩ ?_
  · rw [hxy]; simp [show ∀ l, coreOf (Ev.core (.invoke a .push) :: l : Trace V W) = .invoke a .push :: coreOf l from fun _ => rfl]
  · simp [hr]

theorem Run.after_close {pre post : Trace V W} {s0 : State w V W} (h0 : Exec c pre s0) (h1 : Steps c s0 post s) (h : Run c (pre ++ post) s)
    (hc : Closed (coreOf pre)) {k : Nat} {f : Bool} (hk : LateInv f ([] : Trace V W) k (s0.snd k)) : LateInv f post k (s.snd k) := by
  refine Steps.ind h0 (P := fun post s => Run c (pre ++ post) s → LateInv f post k (s.snd k)) ?_ ?_ ?_ ?_ ?_ post s h1 h
  · exact fun _ => hk
  · intro tr s t e he ih hm he' hrun
    have ih := ih (Run.before (by rw [List.append_assoc]; exact hrun) he)
    cases hm
    case forgetSend j a hj =>
      by_cases hjk : k = j
      · subst hjk
        have := ih.held (by rw [hj]; rfl)
        rw [hj] at this; cases this
      · rw [show (s.sendEnd j (.forgotten a)).snd k = s.snd k from by simp [State.sendEnd, State.sgoto, upd_apply, hjk]]
        exact ih.same (by simp) (by simp)
    all_goals exact ih.same (by simp) (by simp)
  · intro tr s act s1 evs r t es he ih h1 hr hm he' hrun
    have ih := ih (Run.before (by rw [List.append_assoc]; exact hrun) he)
    have hev := core_evs h1
    have hret : ∀ a att r', s.snd k = .push a att → actOp act = a → r = some r' → r' = .closed := by
      rintro a att r' hk rfl rfl
      exact hrun.late_push hc (ih.push _ att hk) (hev.ret' _ hr)
    have hoth : ∀ {j : Nat} {p : SPC} {evs' : Trace V W}, (k ≠ j → ∀ r, Ev.api (.retSend k r) ∉ evs') →
        (k ≠ j → .api (.sleep k) ∉ evs') → (k = j → LateInv f (tr ++ evs') k p) → LateInv f (tr ++ evs') k (Thingbuf.upd s.snd j p k) := by
      intro j p evs' h1 h2 h3
      by_cases hjk : k = j
      · rw [upd_apply, if_pos hjk]; exact h3 hjk
      · rw [upd_apply, if_neg hjk]; exact ih.same (h1 hjk) (h2 hjk)
    cases hm
    case send j x wait a hx hj =>
      refine hoth (by simp) (by simp) ?_
      rintro rfl
      have : .invoke a .push ∈ evs := (hev.inv _ _).2 rfl
      exact ih.move (by simp) (by simp only [SPC.push.injEq]; rintro _ _ ⟨rfl, -⟩; simp [this]) (by simp [SPC.over]) (by simp [SPC.fresh])
    case retry j att a hj =>
      refine hoth (by simp) (by simp) ?_
      rintro rfl
      have : .invoke a .push ∈ evs := (hev.inv _ _).2 rfl
      exact ih.move (by simp) (by simp only [SPC.push.injEq]; rintro _ _ ⟨rfl, -⟩; simp [this]) (by simp [SPC.over]) (by simp [SPC.fresh, hj])
    case pushClosed j a att i hj =>
      refine hoth (by simp) (by simp) ?_
      rintro rfl
      exact ih.move (by simp) (by simp) (by simp) (by simp [SPC.fresh])
    case dropSend j a hj =>
      refine hoth (by simp) (by simp) ?_
      rintro rfl
      have := ih.held (by rw [hj]; rfl)
      rw [hj] at this; cases this
    case pushOk j a att i hj =>
      refine hoth (fun hne r => by simp [hne]) (by simp) ?_
      rintro rfl
      have := hret a att _ hj (by simp) rfl
      cases this
    case fullOnly j a i hj =>
      refine hoth (fun hne r => by simp [hne]) (by simp) ?_
      rintro rfl
      have := hret a _ _ hj (by simp) rfl
      cases this
    case pushPanic j a att i r hj h2 h3 h4 =>
      refine hoth (fun hne r => by simp [hne]) (by simp) ?_
      rintro rfl
      exact absurd (hret a _ _ hj (by simp) rfl) h3
    all_goals first
      | exact ih.same (by simp) (by simp)
      | (refine hoth (by simp) (by simp) ?_
         rintro rfl
         have := hret _ _ _ ‹s.snd k = _› (by simp) rfl
         cases this)
  · intro tr s act s1 evs t es he ih h1 hm he' hrun
    have ih := ih (Run.before (by rw [List.append_assoc]; exact hrun) he)
    cases hm
    case notify j o hj =>
      by_cases hjk : k = j
      · subst hjk
        have := ih.held (by rw [hj]; rfl)
        rw [hj] at this; cases this
      · rw [show ({ s.sgoto j (.notifying o) with cell := s1 } : State w V W).snd k = s.snd k from by simp [State.sgoto, upd_apply, hjk]]
        exact ih.same (by simp) (by simp)
    case notifyEnd j o hj hov =>
      by_cases hjk : k = j
      · subst hjk
        have := ih.held (by rw [hj]; rfl)
        rw [hj] at this; cases this
      · rw [show ({ s.sendEnd j .done with cell := s1 } : State w V W).snd k = s.snd k from by simp [State.sendEnd, State.sgoto, upd_apply, hjk]]
        exact ih.same (by simp) (by simp)
    all_goals exact ih.same (by simp) (by simp)
  · intro tr s act s1 evs t es he ih h1 hm he' hrun
    have ih := ih (Run.before (by rw [List.append_assoc]; exact hrun) he)
    have hoth : ∀ {j : Nat} {p : SPC} {evs' : Trace V W}, (k ≠ j → ∀ r, Ev.api (.retSend k r) ∉ evs') →
        (k ≠ j → .api (.sleep k) ∉ evs') → (k = j → LateInv f (tr ++ evs') k p) → LateInv f (tr ++ evs') k (Thingbuf.upd s.snd j p k) := by
      intro j p evs' h1 h2 h3
      by_cases hjk : k = j
      · rw [upd_apply, if_pos hjk]; exact h3 hjk
      · rw [upd_apply, if_neg hjk]; exact ih.same (h1 hjk) (h2 hjk)
    cases hm
    case startPanic j spur r hj hn hr =>
      obtain ⟨r', rfl⟩ := he.node_ret h1 (.inl hj) hr
      exact absurd rfl (hn r')
    case contPanic j spur r hj hn hr =>
      obtain ⟨r', rfl⟩ := he.node_ret h1 (.inr hj) hr
      exact absurd rfl (hn r')
    case timeout j hj hb =>
      refine hoth (fun hne => by simp [hne]) (by simp) ?_
      rintro rfl
      exact ih.timeout (by rw [hj]; rfl) (by simp) rfl
    case cont j v hj =>
      refine hoth (by simp) (by simp) ?_
      rintro rfl
      refine ih.move (by simp) (by simp) (by simp [SPC.over]) ?_
      rcases hj with hj | hj <;> simp [SPC.fresh, hj]
    case startWait j spur hj hr =>
      refine hoth (by simp) (fun hne => by simp [hne]) ?_
      rintro rfl
      exact ih.move (by simp) (by simp) (by simp [SPC.over]) (by simp [SPC.fresh, hj])
    case contWait j spur hj hr =>
      refine hoth (by simp) (fun hne => by simp [hne]) ?_
      rintro rfl
      exact ih.move (by simp) (by simp) (by simp [SPC.over]) (by simp [SPC.fresh, hj])
    case startClosed j spur hj hr =>
      refine hoth (fun hne => by simp [hne]) (by simp) ?_
      rintro rfl
      exact ih.move (by simp) (by simp) (by simp [SPC.over]) (by simp [SPC.fresh, hj])
    case contClosed j spur hj hr =>
      refine hoth (fun hne => by simp [hne]) (by simp) ?_
      rintro rfl
      exact ih.move (by simp) (by simp) (by simp [SPC.over]) (by simp [SPC.fresh, hj])
    all_goals first
      | exact ih.same (by simp) (by simp)
      | (refine hoth (by simp) (by simp) ?_
         rintro rfl
         exact ih.move (by simp) (by simp) (by simp [SPC.over]) (by simp [SPC.fresh, ‹s.snd k = _›]))

/-! ### Sleeping senders -/

theorem CoreMove.waiting {t : State w V W} {act} {r} {es : List (Api W)} (hm : CoreMove c s act r t es) {k : Nat} (h : s.snd k = .waiting) :
    t.snd k = .waiting := by
  cases hm
  all_goals first
    | exact h
    | (simp only [State.sgoto, State.sendEnd, upd_apply]
       split
       · rename_i hp e; subst e; rw [h] at hp; cases hp
       · exact h)
    | (simp only [State.sgoto, State.sendEnd, upd_apply]
       split
       · rename_i hp _ e; subst e; rw [h] at hp; cases hp
       · exact h)
    | (simp only [State.sgoto, State.sendEnd, upd_apply]
       split
       · rename_i hp _ _ _ e; subst e; rw [h] at hp; cases hp
       · exact h)

theorem CellMove.waiting {t : State w V W} {act} {r} {es : List (Api W)} (hm : CellMove c s act r t es) {k : Nat} (h : s.snd k = .waiting) :
    t.snd k = .waiting := by
  cases hm
  all_goals first
    | exact h
    | (simp only [State.sgoto, State.sendEnd, upd_apply]
       split
       · rename_i hp e; subst e; rw [h] at hp; cases hp
       · exact h)
    | (simp only [State.sgoto, State.sendEnd, upd_apply]
       split
       · rename_i hp _ e; subst e; rw [h] at hp; cases hp
       · exact h)

theorem QueueMove.waiting {t : State w V W} {act} {r} {es : List (Api W)} (hm : QueueMove c s act r t es) {k : Nat} (h : s.snd k = .waiting) :
    t.snd k = .waiting ∨ (∃ v, act = .cont k v) ∨ .cancel k ∈ es ∨ .retSend k .timeout ∈ es := by
  cases hm
  case cont j v hj =>
    simp only [State.sgoto, upd_apply]
    split
    · rename_i e; subst e; exact .inr (.inl ⟨_, rfl⟩)
    · exact .inl h
  case cancel j hb hj =>
    simp only [State.sgoto, upd_apply]
    split
    · rename_i e; subst e; exact .inr (.inr (.inl (by simp)))
    · exact .inl h
  case timeout j hj hb =>
    simp only [State.sgoto, State.sendEnd, upd_apply]
    split
    · rename_i e; subst e; exact .inr (.inr (.inr (by simp)))
    · exact .inl h
  all_goals first
    | exact .inl h
    | (simp only [State.sgoto, State.sendEnd, upd_apply]
       split
       · rename_i e; subst e; exfalso; revert h; simp [‹s.snd k = _›]
       · exact .inl h)

theorem _root_.Thingbuf.Queue.Good.ret_last {W : Type} {c : Queue.Config W} {s : Queue.State W} {q : List Nat} {t : Queue.Tid} {p : Queue.PC W} {st : Queue.QSt}
    {evs : Queue.Trace W} (hg : Queue.Good c s q t p st evs) {n : Nat} {r : Queue.Res3} {e : Queue.Event W} (he : e = .retStart n r ∨ e = .retCont n r) (h : e ∈ evs) :
    ∃ l, evs = l ++ [e] := by
  have key : ∀ l x, evs = l ++ [x] → (∀ r n, .retStart n r ∉ l ∧ .retCont n r ∉ l) → ∃ l, evs = l ++ [e] := by
    rintro l x rfl hl
    rcases List.mem_append.1 h with h | h
    · rcases he with rfl | rfl
      · exact absurd h (hl _ _).1
      · exact absurd h (hl _ _).2
    · rw [List.mem_singleton.1 h]; exact ⟨_, rfl⟩
  cases hg
  all_goals first
    | (exfalso; rcases he with rfl | rfl <;> simp at h; done)
    | exact key [] _ rfl (by simp)
    | exact key [_] _ rfl (by simp)
    | exact key (_ ++ [_]) _ (by rw [List.append_assoc]; rfl) (by simp)

/-- A send call that went to sleep, was not polled again and not cancelled, is waiting. -/
theorem ExecM.asleep {m : Bool} (h : ExecM m c tr s) {k : Nat} {pre post : Trace V W} (htr : tr = pre ++ .api (.sleep k) :: post)
    (hc : .api (.cancel k) ∉ post) (hn : ∀ v, .queue (.callCont k v) ∉ post) (ht : .api (.retSend k .timeout) ∉ post) : s.snd k = .waiting := by
  obtain ⟨tr0, l, s0, s1, h0, hl, h1, h2, h3⟩ := h.at_api htr (by simp)
  have hs1 : s1.snd k = .waiting := by
    cases h1 with
    | api hm hl hr hs => cases hm
    | core es1 es2 h1 hm hl hr hs =>
      generalize hes : es1 ++ Api.sleep k :: es2 = es at hm
      generalize hret : coreRet _ = ret at hm
      have : Api.sleep k ∈ es := by rw [← hes]; simp
      cases hm <;> simp at this
    | cell es1 es2 h1 hm hl hr hs =>
      generalize hes : es1 ++ Api.sleep k :: es2 = es at hm
      have : Api.sleep k ∈ es := by rw [← hes]; simp
      cases hm <;> simp at this
    | queue es1 es2 h1 hm hl hr hs =>
      generalize hes : es1 ++ Api.sleep k :: es2 = es at hm
      have : Api.sleep k ∈ es := by rw [← hes]; simp
      cases hm <;> simp at this <;> subst this hs <;> simp
  refine StepsM.ind h2 (P := fun post s => .api (.cancel k) ∉ post → (∀ v, .queue (.callCont k v) ∉ post) → .api (.retSend k .timeout) ∉ post → s.snd k = .waiting)
    ?_ (fun _ _ _ _ _ ih _ => ih) (fun _ _ _ _ _ ih _ _ => ih) ?_ ?_ ?_ ?_ post s h3 hc hn ht
  · exact fun _ _ _ => hs1
  · intro tr s t e he ih hm he' hc hn ht
    have ih := ih (fun h => hc (by simp [h])) (fun v h => hn v (by simp [h])) (fun h => ht (by simp [h]))
    cases hm
    case forgetSend j a hj =>
      have : k ≠ j := by rintro rfl; rw [ih] at hj; cases hj
      simp [State.sendEnd, State.sgoto, upd_apply, this, ih]
    all_goals exact ih
  · intro tr s act s1 evs r t es he ih h1 hr hm he' hc hn ht
    have ih := ih (fun h => hc (by simp [h])) (fun v h => hn v (by simp [h])) (fun h => ht (by simp [h]))
    exact hm.waiting ih
  · intro tr s act s1 evs t es he ih h1 hm he' hc hn ht
    have ih := ih (fun h => hc (by simp [h])) (fun v h => hn v (by simp [h])) (fun h => ht (by simp [h]))
    exact hm.waiting ih
  · intro tr s act s1 evs t es he ih h1 hm he' hc hn ht
    have ih := ih (fun h => hc (by simp [h])) (fun v h => hn v (by simp [h])) (fun h => ht (by simp [h]))
    rcases hm.waiting ih with h2 | ⟨v, rfl⟩ | h2 | h2
    · exact h2
    · refine absurd ?_ (hn v)
      have := (queue_evs h1).callCont k v
      simp [this]
    · exact absurd (by simp [h2]) hc
    · exact absurd (by simp [h2]) ht

/-- A sender that goes to sleep is in the wait queue. -/
theorem ExecM.sleep_queued {m : Bool} (h : ExecM m c tr s) {k : Nat} {pre post : Trace V W} (htr : tr = pre ++ .api (.sleep k) :: post) :
    k ∈ Queue.queueOf (queueOf pre) := by
  obtain ⟨tr0, l, s0, s1, h0, hl, h1, h2, h3⟩ := h.at_api htr (by simp)
  cases h1 with
  | api hm hl hr hs => cases hm
  | core es1 es2 h1 hm hl hr hs =>
    generalize hes : es1 ++ Api.sleep k :: es2 = es at hm
    generalize hret : coreRet _ = ret at hm
    have : Api.sleep k ∈ es := by rw [← hes]; simp
    cases hm <;> simp at this
  | cell es1 es2 h1 hm hl hr hs =>
    generalize hes : es1 ++ Api.sleep k :: es2 = es at hm
    have : Api.sleep k ∈ es := by rw [← hes]; simp
    cases hm <;> simp at this
  | @queue act q1 evs t es1 es2 h1 hm hl' hr hs =>
    generalize hes : es1 ++ Api.sleep k :: es2 = es at hm
    have hmem : Api.sleep k ∈ es := by rw [← hes]; simp
    have hev := queue_evs h1
    have hlast : ∀ e, (e = .retStart k .wait ∨ e = .retCont k .wait) → e ∈ evs → k ∈ Queue.queueOf (queueOf pre) := by
      intro e he hm
      obtain ⟨t, p, st, lk, l, b, rx, -, -, hg⟩ := h0.queue.good h1
      obtain ⟨l, rfl⟩ := hg.ret_last he hm
      have := Queue.C26_wait_is_queued (h0.queue.step h1) (n := k) (pre := queueOf tr0 ++ l) (post := []) (by rcases he with rfl | rfl <;> simp)
      rw [hl, hl']
      simp only [queueOf_append, queueOf_queue, queueOf_api, List.append_nil]
      rw [← List.append_assoc, Queue.queueOf_snoc]
      rcases he with rfl | rfl <;> exact this
    have hn := h0.nodesOk k
    cases hm <;> simp at hmem
    · subst hmem
      rename_i hr hj
      rw [hj] at hn
      exact hlast _ (.inl rfl) (hev.start' _ _ _ rfl hn hr)
    · subst hmem
      rename_i hr hj
      rw [hj] at hn
      exact hlast _ (.inr rfl) (hev.cont' _ _ _ rfl hn hr)

/-- Only a cancelled send call removes its node from the wait queue. -/
theorem ExecM.rem_cancel {m : Bool} (h : ExecM m c tr s) {k : Nat} (hr : .queue (.rem k) ∈ tr) : .api (.cancel k) ∈ tr := by
  refine ExecM.ind (P := fun tr s => .queue (.rem k) ∈ tr → .api (.cancel k) ∈ tr) ?_ (fun _ _ _ _ _ ih _ => ih) (fun _ _ _ _ _ ih _ _ => ih) ?_ ?_ ?_ ?_ tr s h hr
  · simp
  · intro tr s t e he ih hm hr
    simp at hr ⊢
    exact .inl (ih hr)
  · intro tr s act s1 evs r t es he ih h1 hr hm hr
    simp at hr ⊢
    exact .inl (ih hr)
  · intro tr s act s1 evs t es he ih h1 hm hr
    simp at hr ⊢
    exact .inl (ih hr)
  · intro tr s act s1 evs t es he ih h1 hm hr
    rcases List.mem_append.1 hr with hr | hr
    · exact List.mem_append_left _ (ih hr)
    · simp at hr
      obtain ⟨⟨spur, rfl⟩, h2⟩ := (queue_evs h1).rem k hr
      have hn := he.nodesOk k
      have hd : s.snd k = .dropping := by
        generalize s.snd k = p at hn
        rw [show queueTid (Queue.Act.node (W := W) k spur) = .node k from rfl] at h2
        generalize s.queue.pc _ = q at hn h2
        cases p <;> simp only [nodeOk] at hn
        all_goals first
          | rfl
          | (rename_i a; cases a <;> simp only [nodeOk] at hn)
          | (rename_i a b; cases b <;> simp only [nodeOk] at hn)
          | skip
        all_goals first
          | (subst hn; cases h2; done)
          | (obtain ⟨l, rfl, hn⟩ := hn; cases h2; done)
          | (rw [hn.2.2.2] at h2; cases h2; done)
          | (cases q <;> simp_all [NodeNext.startPC, NodeNext.contPC, NodeNext.remPC])
      have := he.life k
      rw [hd] at this
      obtain ⟨x, wt, hx⟩ := this
      refine List.mem_append_left _ ((mem_life (k := k) (e := .cancel k) rfl).1 ?_)
      rw [hx]; simp

end Thingbuf.Chan
