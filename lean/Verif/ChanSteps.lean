import Verif.ChanSent

/-!
# The step of an event

For an event of a trace, the step that produced it and the state before it.
-/

namespace Thingbuf.Chan

variable {w : Nat} {V W : Type} {c : Config W} {tr : Trace V W} {s : State w V W}

/-- The step an event belongs to. -/
theorem ExecM.at {m : Bool} (h : ExecM m c tr s) {pre post : Trace V W} {e : Ev V W} (htr : tr = pre ++ e :: post) :
    ∃ (tr0 : Trace V W) (s0 s1 : State w V W) (l r rest : Trace V W), ExecM m c tr0 s0 ∧ Tr c s0 s1 (l ++ e :: r) ∧ ExecM m c (tr0 ++ (l ++ e :: r)) s1 ∧ pre = tr0 ++ l ∧
      post = r ++ rest := by
  induction h generalizing post with
  | init => simp at htr
  | stale _ _ _ ih => exact ih htr
  | mem _ _ _ _ _ _ ih => exact ih htr
  | @step tr s s' act evs h hs ih =>
    rcases append_split htr with ⟨post', h1, h2⟩ | ⟨e1, h1, h2⟩
    · obtain ⟨tr0, s0, s1, l, r, rest, h3, h4, h5, h6, h7⟩ := ih h2
      exact ⟨tr0, s0, s1, l, r, rest ++ evs, h3, h4, h5, h6, by rw [h1, h7]; simp⟩
    · have ht := step_tr hs
      have he := h.step hs
      rw [h1] at ht he
      exact ⟨tr, s, s', e1, post, [], h, ht, he, h2, by simp⟩

/-- The parts of a step, given that one of its events is an API event. -/
inductive ApiStep (c : Config W) (s s' : State w V W) (l : Trace V W) (e : Api W) (r : Trace V W) : Prop where
  | api {t : State w V W} (hm : ApiMove c s t e) (hl : l = []) (hr : r = []) (hs : s' = t)
  | core {act : Thingbuf.Act V} {s1 : Thingbuf.State w V} {evs : List (Event V)} {t : State w V W} (es1 es2 : List (Api W))
      (h1 : Thingbuf.step c.cap s.core act = some (s1, evs)) (hm : CoreMove c s act (coreRet evs) t (es1 ++ e :: es2))
      (hl : l = evs.map .core ++ es1.map .api) (hr : r = es2.map .api) (hs : s' = { t with core := s1 })
  | cell {act : Cell.Act W} {s1 : Cell.State W} {evs : List (Cell.Event W)} {t : State w V W} (es1 es2 : List (Api W))
      (h1 : Cell.step c.cell s.cell act = some (s1, evs)) (hm : CellMove c s act evs t (es1 ++ e :: es2))
      (hl : l = evs.map .cell ++ es1.map .api) (hr : r = es2.map .api) (hs : s' = { t with cell := s1 })
  | queue {act : Queue.Act W} {s1 : Queue.State W} {evs : List (Queue.Event W)} {t : State w V W} (es1 es2 : List (Api W))
      (h1 : Queue.step c.queue s.queue act = some (s1, evs)) (hm : QueueMove c s act evs t (es1 ++ e :: es2))
      (hl : l = evs.map .queue ++ es1.map .api) (hr : r = es2.map .api) (hs : s' = { t with queue := s1 })

theorem map_api_split {l r : Trace V W} {es : List (Api W)} {e : Api W} (h : l ++ .api e :: r = es.map .api) :
    ∃ es1 es2, es = es1 ++ e :: es2 ∧ l = es1.map .api ∧ r = es2.map .api := by
  obtain ⟨es1, es2, h1, h2, h3⟩ := List.map_eq_append_iff.1 h.symm
  obtain ⟨e', es2, rfl, h4, h5⟩ := List.map_eq_cons_iff.1 h3
  cases h4
  exact ⟨es1, es2, h1, h2.symm, h5.symm⟩

theorem not_api_split {α : Type} {f : α → Ev V W} (hf : ∀ x e, f x ≠ .api e) {evs : List α} {es : List (Api W)} {l r : Trace V W} {e : Api W}
    (h : l ++ .api e :: r = evs.map f ++ es.map .api) :
    ∃ es1 es2, es = es1 ++ e :: es2 ∧ l = evs.map f ++ es1.map .api ∧ r = es2.map .api := by
  rcases append_split h.symm with ⟨post', h1, h2⟩ | ⟨e1, h1, h2⟩
  · have : Ev.api e ∈ evs.map f := by rw [h2]; simp
    obtain ⟨x, _, hx⟩ := List.mem_map.1 this
    exact absurd hx (hf x e)
  · obtain ⟨es1, es2, h3, h4, h5⟩ := map_api_split h1.symm
    exact ⟨es1, es2, h3, by rw [h2, h4], h5⟩

theorem Tr.apiStep {s' : State w V W} {evs : Trace V W} (h : Tr c s s' evs) {l r : Trace V W} {e : Api W} (he : evs = l ++ .api e :: r) :
    ApiStep c s s' l e r := by
  cases h with
  | api hm =>
    cases l with
    | nil => simp at he; obtain ⟨rfl, rfl⟩ := he; exact .api hm rfl rfl rfl
    | cons x l => simp at he
  | @core act s1 evs t es h1 hm =>
    obtain ⟨es1, es2, h3, h4, h5⟩ := not_api_split (by simp) he.symm
    rw [h3] at hm
    exact .core es1 es2 h1 hm h4 h5 rfl
  | @cell act s1 evs t es h1 hm =>
    obtain ⟨es1, es2, h3, h4, h5⟩ := not_api_split (by simp) he.symm
    rw [h3] at hm
    exact .cell es1 es2 h1 hm h4 h5 rfl
  | @queue act s1 evs t es h1 hm =>
    obtain ⟨es1, es2, h3, h4, h5⟩ := not_api_split (by simp) he.symm
    rw [h3] at hm
    exact .queue es1 es2 h1 hm h4 h5 rfl

/-- A part of a trace in which an event of the ring buffer occurs. -/
theorem core_split {evs : List (Event V)} {es : List (Api W)} {l r : Trace V W} {e : Event V}
    (h : l ++ .core e :: r = evs.map .core ++ es.map .api) :
    ∃ e1 e2, evs = e1 ++ e :: e2 ∧ l = e1.map .core ∧ r = e2.map .core ++ es.map .api := by
  rcases append_split h.symm with ⟨post', h1, h2⟩ | ⟨e1, h1, h2⟩
  · obtain ⟨e1, e2, h3, h4, h5⟩ := List.map_eq_append_iff.1 h2
    obtain ⟨e', e2, rfl, h6, h7⟩ := List.map_eq_cons_iff.1 h5
    cases h6
    exact ⟨e1, e2, h3, h4.symm, by rw [h1, ← h7]⟩
  · have : Ev.core e ∈ es.map (.api : _ → Ev V W) := by rw [h1]; simp
    simp at this

theorem cell_split {evs : List (Cell.Event W)} {es : List (Api W)} {l r : Trace V W} {e : Cell.Event W}
    (h : l ++ .cell e :: r = evs.map .cell ++ es.map .api) :
    ∃ e1 e2, evs = e1 ++ e :: e2 ∧ l = e1.map .cell ∧ r = e2.map .cell ++ es.map .api := by
  rcases append_split h.symm with ⟨post', h1, h2⟩ | ⟨e1, h1, h2⟩
  · obtain ⟨e1, e2, h3, h4, h5⟩ := List.map_eq_append_iff.1 h2
    obtain ⟨e', e2, rfl, h6, h7⟩ := List.map_eq_cons_iff.1 h5
    cases h6
    exact ⟨e1, e2, h3, h4.symm, by rw [h1, ← h7]⟩
  · have : Ev.cell e ∈ es.map (.api : _ → Ev V W) := by rw [h1]; simp
    simp at this

/-! ### Sent messages -/

/-- The step that drops a `SendRef`. -/
theorem ExecM.commit_at {m : Bool} (h : ExecM m c tr s) {pre post : Trace V W} {a : OpId} {i : Nat} {v : Option V}
    (htr : tr = pre ++ .core (.commit a i v) :: post) :
    ∃ (k : Nat) (s0 : State w V W) (post' : Trace V W), ExecM m c pre s0 ∧ s0.snd k = .held a ∧ post = .api (.dropSend k) :: post' := by
  obtain ⟨tr0, s0, s1, l, r, rest, h1, h2, h3, rfl, rfl⟩ := h.at htr
  generalize hg : l ++ Ev.core (.commit a i v) :: r = evs at h2
  cases h2 with
  | api hm => cases l <;> simp at hg
  | @core act s1 evs t es hs hm =>
    obtain ⟨e1, e2, rfl, rfl, rfl⟩ := core_split hg
    obtain ⟨hact, hk, hev⟩ := (core_evs hs).commit a i v (by simp)
    subst hact
    cases e1 with
    | cons x e1 => simp at hev
    | nil =>
      simp only [List.nil_append, List.cons.injEq, true_and] at hev
      subst hev
      generalize hr : coreRet _ = r at hm
      generalize hact : (Act.dropRef a : Thingbuf.Act V) = act at hm
      cases hm <;> first | (cases hact; done) | (exact absurd hact.symm (runAct_drop _ _ _)) | (exact absurd hact.symm (pushAct_drop _ _ _)) | skip
      case dropSend k a' hp => cases hact; exact ⟨k, s0, rest, by simpa using h1, hp, rfl⟩
      case dropRecv a' hp =>
        cases hact
        have := h1.coreOwns.sat (.ref a) a .popHeld (by simp [coreClaim, claimOf, hp, refCore])
        rw [actOp_drop, this] at hk; cases hk
  | @cell act s1 evs t es hs hm =>
    have : Ev.core (.commit a i v) ∈ List.map Ev.cell evs ++ List.map Ev.api es := by rw [← hg]; simp
    simp at this
  | @queue act s1 evs t es hs hm =>
    have : Ev.core (.commit a i v) ∈ List.map Ev.queue evs ++ List.map Ev.api es := by rw [← hg]; simp
    simp at this

theorem mem_life {k : Nat} {e : Api W} (he : callOf e = some k) : e ∈ life k (apiOf tr) ↔ .api e ∈ tr := by
  rw [life, List.mem_filter, mem_apiOf]
  simp [he]

theorem ExecM.life {m : Bool} (h : ExecM m c tr s) (k : Nat) : LifeOk k (s.snd k) (life k (apiOf tr)) := h.lives k

/-- A send call that returned a `SendRef`. -/
theorem ExecM.ret_ok {m : Bool} (h : ExecM m c tr s) {k : Nat} {a : OpId} (hr : .api (.retSend k (.ok a)) ∈ tr) :
    .api (.attempt k a) ∈ tr ∧ .core (.ret a .pushed) ∈ tr := by
  obtain ⟨pre, post, htr⟩ := List.append_of_mem hr
  obtain ⟨tr0, s0, s1, l, r, rest, h1, h2, h3, rfl, rfl⟩ := h.at htr
  cases h2.apiStep rfl with
  | api hm => cases hm
  | cell es1 es2 hs hm => generalize hg : es1 ++ Api.retSend k (.ok a) :: es2 = es at hm; cases hm <;> cases es1 <;> simp at hg
  | queue es1 es2 hs hm => generalize hg : es1 ++ Api.retSend k (.ok a) :: es2 = es at hm; cases hm <;> cases es1 <;> simp at hg
  | @core act s1 evs t es1 es2 hs hm hl =>
    generalize hg : es1 ++ Api.retSend k (.ok a) :: es2 = es at hm
    generalize hrr : coreRet evs = rr at hm
    cases hm <;> try (cases es1 <;> simp at hg; done)
    case pushOk k' a' att i hp _ =>
      cases es1 <;> simp at hg
      obtain ⟨⟨rfl, rfl⟩, -⟩ := hg
      have := h1.attInv.att k
      rw [hp] at this
      have h4 := (core_evs hs).ret' _ hrr
      rw [actOp_push] at h4
      rw [htr, hl]
      exact ⟨by simp [this.1], by simp [h4]⟩
    case send => rcases es1 with _ | ⟨_, _ | ⟨_, _⟩⟩ <;> simp at hg

/-- A dropped `SendRef` belongs to a send call. -/
theorem ExecM.committed {m : Bool} (h : ExecM m c tr s) {a : OpId} (hc : Committed (coreOf tr) a) :
    ∃ k, .api (.attempt k a) ∈ tr ∧ .api (.retSend k (.ok a)) ∈ tr ∧ .api (.dropSend k) ∈ tr := by
  obtain ⟨i, v, hc⟩ := hc
  obtain ⟨pre, post, htr⟩ := List.append_of_mem (mem_coreOf.1 hc)
  obtain ⟨k, s0, post', h1, hp, rfl⟩ := h.commit_at htr
  have hl := h1.life k
  rw [hp] at hl
  obtain ⟨x, wt, hl⟩ := hl
  have h2 : .api (.retSend k (.ok a)) ∈ pre := (mem_life (by rfl)).1 (by rw [hl]; simp)
  have h3 := h1.ret_ok h2
  rw [htr]
  exact ⟨k, by simp [h3.1], by simp [h2], by simp⟩

end Thingbuf.Chan
