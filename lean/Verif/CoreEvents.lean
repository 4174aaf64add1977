import Verif.CorePres
/-
What is true of the trace at each event, for every execution.
-/
namespace Thingbuf

variable {w cap : Nat} {V : Type}
variable {m : Prop}

/-- Operation `a` owns slot `i`. -/
def Own (cap : Nat) (tr : Trace V) (a : OpId) (i : Nat) : Prop :=
  ∃ p, i = p % cap ∧ (PushAt tr a p ∨ PopAt cap tr a p)

theorem Own.unique {tr : Trace V} {s : State w V} (hi : Inv m w cap tr s) {a b : OpId} {i : Nat}
    (ha : Own cap tr a i) (hb : Own cap tr b i) : a = b := by
  obtain ⟨p, rfl, hp⟩ := ha
  obtain ⟨q, hm, hq⟩ := hb
  rcases hp with hp | hp <;> rcases hq with hq | hq
  · exact (hp.unique hi hq hm).2
  · exact (hp.ne_pop hi hq hm).elim
  · exact (hq.ne_pop hi hp hm.symm).elim
  · exact (hp.unique hi hq hm).2

theorem Inv.own_held {tr : Trace V} {s : State w V} (hi : Inv m w cap tr s) {a : OpId} {i : Nat}
    {ns : BitVec w} (h : s.pc a = .pushHeld i ns ∨ s.pc a = .popHeld i ns) : Own cap tr a i := by
  have := hi.pcs a
  rcases h with h | h <;> rw [h] at this
  · obtain ⟨p, h1, _, h2, _⟩ := this
    exact ⟨p, h2, .inl h1⟩
  · obtain ⟨p, h1, h2, _⟩ := this
    exact ⟨p, h2, .inr h1⟩

theorem Inv.own_init {tr : Trace V} {s : State w V} (hw : WellSized w cap) (hi : Inv m w cap tr s)
    {a : OpId} {p : Nat} (h : s.pc a = .pushInit (enc w cap p)) : Own cap tr a (p % cap) := by
  have := hi.pcs a
  rw [h] at this
  obtain ⟨q, h1, _, h2, _⟩ := this
  refine ⟨q, ?_, .inl h1⟩
  have e := congrArg (fun x => ((Params.new w cap).idxGen x).1.toNat) h2
  simpa only [idx_enc hw] using e

/-- A slot that can be reserved is owned by nobody. -/
theorem Inv.free_not_own {tr : Trace V} {s : State w V} (hw : WellSized w cap) (hi : Inv m w cap tr s)
    {p : Nat} (h1 : nRes tr ≤ p) (h2 : p < nDeq tr + cap) (hst : s.st (p % cap) = enc w cap p) (b : OpId) :
    ¬ Own cap tr b (p % cap) := by
  rintro ⟨q, hm, hq | hq⟩
  · have := hq.lt; have := hq.nd; have := hi.le
    have : p = q := mod_inj_window (H := nDeq tr) hm (by omega) (by omega) (by omega) (by omega)
    omega
  · have h3 := hq.lt; have h4 := hq.nr; have h5 := hi.le
    have : p = q + cap := mod_inj_window (cap := cap) (H := nDeq tr) (by simp [hm]) (by omega)
      (by omega) (by omega) (by omega)
    subst this
    rcases hi.free _ h1 h2 with ⟨_, hl⟩ | ⟨hcp, hst', _⟩
    · obtain ⟨v, b', hb', -, hr⟩ := hl (by omega)
      rw [Nat.add_sub_cancel] at hb'
      have : b' = b := Option.some.inj (hb'.symm.trans hq.deq)
      subst this
      exact hq.nrel ⟨_, _, hr⟩
    · exact enc_ne_enc_succ hw (by rw [sub_mod_self hcp]) (hst.symm.trans hst')

@[simp] theorem content_append (a : OpId) (t u : Trace V) :
    content a (t ++ u) = u.foldl (contentStep a) (content a t) := by
  simp only [content, List.foldl_append]

@[simp] theorem inits_append (a : OpId) (t u : Trace V) : inits a (t ++ u) = inits a t ++ inits a u := by
  simp [inits]

theorem inits_other {evs : Trace V} {a b : OpId} (h : ∀ e ∈ evs, e.actor = a) (hb : b ≠ a) :
    inits b evs = [] := by
  unfold inits
  rw [List.filterMap_eq_nil_iff]
  intro e he
  have := h e he
  cases e with
  | access c i k =>
    have hne : c ≠ b := fun hc => hb (hc.symm.trans this)
    cases k <;> simp [hne]
  | _ => rfl

@[simp] theorem lastLeft_append (i : Nat) (t u : Trace V) :
    lastLeft i (t ++ u) = u.foldl (leftStep i) (lastLeft i t) := by
  simp only [lastLeft, List.foldl_append]

attribute [simp] contentStep leftStep

theorem content_other {evs : Trace V} {a b : OpId} (h : ∀ e ∈ evs, e.actor = a) (hb : b ≠ a)
    (t : Trace V) : content b (t ++ evs) = content b t := by
  induction evs generalizing t with
  | nil => simp
  | cons e evs ih =>
    have he : e.actor = a := h _ List.mem_cons_self
    have : content b (t ++ [e]) = content b t := by
      cases e with
      | dequeue c i v => simp [Event.actor] at he ⊢; intro h; exact absurd (h.symm.trans he) hb
      | access c i k =>
        have hne : c ≠ b := fun h => hb (h.symm.trans he)
        cases k <;> simp [hne]
      | _ => simp
    rw [← this, ← ih (fun e' h' => h e' (List.mem_cons_of_mem _ h')) (t ++ [e])]
    simp only [List.append_assoc, List.singleton_append]

/-- What the slots contain, in terms of the trace. -/
structure InvX (w cap : Nat) (tr : Trace V) (s : State w V) : Prop where
  held : ∀ a i ns, s.pc a = .pushHeld i ns ∨ s.pc a = .popHeld i ns → s.val i = content a tr
  ini : ∀ a p, s.pc a = .pushInit (enc w cap p) → s.val (p % cap) = lastLeft (p % cap) tr
  free : ∀ p, nRes tr ≤ p → p < nDeq tr + cap → s.st (p % cap) = enc w cap p →
    s.val (p % cap) = lastLeft (p % cap) tr

theorem InvX.init : InvX w cap ([] : Trace V) (State.init w V) where
  held := by intro a i ns h; simp [State.init] at h
  ini := by intro a p h; simp [State.init] at h
  free := by intro p _ _ _; rfl

/-- Program counters about which `InvX` says nothing. -/
def NoContent : PC w → Prop
  | .pushInit _ | .pushHeld _ _ | .popHeld _ _ => False
  | _ => True

theorem NonOwner.noContent {pc : PC w} (h : NonOwner pc) : NoContent pc := by
  cases pc <;> first | trivial | exact h.elim

/-- Steps of an operation that ends up owning nothing, and that changes no content. -/
theorem InvX.quiet {tr evs : Trace V} {s s' : State w V} {a : OpId} {pc' : PC w} (hx : InvX w cap tr s)
    (hact : ∀ e ∈ evs, e.actor = a) (hr : resOps evs = []) (hd : deqOps evs = [])
    (hl : ∀ i, lastLeft i (tr ++ evs) = lastLeft i tr) (hn : NoContent pc')
    (hpc : s'.pc = upd s.pc a pc') (hv : s'.val = s.val) (hst : s'.st = s.st) :
    InvX w cap (tr ++ evs) s' where
  held := by
    intro b i ns h
    by_cases hb : b = a
    · subst hb; rw [hpc, upd_self] at h
      rcases h with h | h <;> (subst h; exact hn.elim)
    · rw [hpc, upd_ne _ _ hb] at h
      rw [hv, content_other hact hb]; exact hx.held b i ns h
  ini := by
    intro b p h
    by_cases hb : b = a
    · subst hb; rw [hpc, upd_self] at h
      subst h; exact hn.elim
    · rw [hpc, upd_ne _ _ hb] at h
      rw [hv, hl]; exact hx.ini b p h
  free := by
    have er : nRes (tr ++ evs) = nRes tr := by simp [nRes, hr]
    have ed : nDeq (tr ++ evs) = nDeq tr := by simp [nDeq, hd]
    rw [er, ed, hv, hst]
    intro p; rw [hl]; exact hx.free p

/-- Steps of an owner that change the content of its slot only. -/
theorem InvX.put {tr evs : Trace V} {s s' : State w V} {a : OpId} {i : Nat} (hw : WellSized w cap)
    (hi : Inv m w cap tr s) (hx : InvX w cap tr s)
    (hact : ∀ e ∈ evs, e.actor = a) (hr : resOps evs = []) (hd : deqOps evs = [])
    (hl : ∀ i, lastLeft i (tr ++ evs) = lastLeft i tr) (ho : Own cap tr a i)
    (hpc : ∀ b, b ≠ a → s'.pc b = s.pc b) (hv : ∀ j, j ≠ i → s'.val j = s.val j) (hst : s'.st = s.st)
    (hheld : ∀ j ns, s'.pc a = .pushHeld j ns ∨ s'.pc a = .popHeld j ns →
      s'.val j = content a (tr ++ evs))
    (hini : ∀ p, s'.pc a ≠ .pushInit (enc w cap p)) :
    InvX w cap (tr ++ evs) s' where
  held := by
    intro b j ns h
    by_cases hb : b = a
    · subst hb; exact hheld j ns h
    · rw [hpc b hb] at h
      have : j ≠ i := by
        rintro rfl; exact hb (Own.unique hi (hi.own_held h) ho)
      rw [hv j this, content_other hact hb]; exact hx.held b j ns h
  ini := by
    intro b p h
    by_cases hb : b = a
    · subst hb; exact absurd h (hini p)
    · rw [hpc b hb] at h
      have : p % cap ≠ i := by
        rintro rfl; exact hb (Own.unique hi (hi.own_init hw h) ho)
      rw [hv _ this, hl]; exact hx.ini b p h
  free := by
    have er : nRes (tr ++ evs) = nRes tr := by simp [nRes, hr]
    have ed : nDeq (tr ++ evs) = nDeq tr := by simp [nDeq, hd]
    rw [er, ed, hst]
    intro p h1 h2 h3
    have : p % cap ≠ i := by
      rintro rfl; exact hi.free_not_own hw h1 h2 h3 a ho
    rw [hv _ this, hl]; exact hx.free p h1 h2 h3

theorem InvX.pres {tr evs : Trace V} {s s' : State w V} (hw : WellSized w cap) (hi : Inv m w cap tr s)
    (hx : InvX w cap tr s) (hs : StepR m w cap tr s s' evs) : InvX w cap (tr ++ evs) s' := by
  cases hs with
  | invoke a op h =>
    exact hx.quiet (a := a) (by simp [Event.actor]) rfl rfl (by simp) (by cases op <;> trivial) rfl rfl rfl
  | silent a pc' op hp hn' h =>
    exact hx.quiet (a := a) (by simp) rfl rfl (by simp) hn'.noContent rfl rfl rfl
  | retn a r op hp hr =>
    exact hx.quiet (a := a) (pc' := .done) (by simp [Event.actor]) rfl rfl (by simp) trivial rfl rfl rfl
  | close a hp =>
    exact hx.quiet (a := a) (pc' := .done) (by simp [Event.actor]) rfl rfl (by simp) trivial rfl rfl rfl
  | reserve a hp hc hlt hst =>
    have er : nRes (tr ++ [.reserve a (nRes tr % cap)]) = nRes tr + 1 := by simp [nRes, resOps]
    have ed : nDeq (tr ++ [.reserve a (nRes tr % cap)]) = nDeq tr := by simp [nDeq, deqOps]
    refine ⟨?_, ?_, ?_⟩
    · intro b i ns h
      by_cases hb : b = a
      · subst hb; simp [State.goto] at h
      · simp only [State.goto, upd_ne _ _ hb] at h
        have := hx.held b i ns h
        simpa [State.goto] using this
    · intro b p h
      by_cases hb : b = a
      · subst hb
        simp only [State.goto, upd_self, PC.pushInit.injEq] at h
        have e := congrArg (fun x => ((Params.new w cap).idxGen x).1.toNat) h
        simp only [idx_enc hw] at e
        rw [← e]
        have := hx.free _ (Nat.le_refl _) hlt hst
        simpa [State.goto] using this
      · simp only [State.goto, upd_ne _ _ hb] at h
        have := hx.ini b p h
        simpa [State.goto] using this
    · intro p h1 h2 h3
      rw [er] at h1; rw [ed] at h2
      have := hx.free p (by omega) h2 h3
      simpa [State.goto] using this
  | dequeue a hp hlt hst =>
    generalize hevs : [Event.dequeue a (nDeq tr % cap) (s.val (nDeq tr % cap)), .ret a .popped] = evs
    have hact : ∀ e ∈ evs, e.actor = a := by subst hevs; simp [Event.actor]
    have er : nRes (tr ++ evs) = nRes tr := by subst hevs; simp [nRes, resOps]
    have ed : nDeq (tr ++ evs) = nDeq tr + 1 := by subst hevs; simp [nDeq, deqOps]
    have hl : ∀ i, lastLeft i (tr ++ evs) = lastLeft i tr := by subst hevs; simp
    refine ⟨?_, ?_, ?_⟩
    · intro b i ns h
      by_cases hb : b = a
      · subst hb
        simp [State.goto] at h
        subst hevs
        simp [State.goto, h.1]
      · simp only [State.goto, upd_ne _ _ hb] at h
        rw [content_other hact hb]
        exact hx.held b i ns h
    · intro b p h
      by_cases hb : b = a
      · subst hb; simp [State.goto] at h
      · simp only [State.goto, upd_ne _ _ hb] at h
        rw [hl]
        exact hx.ini b p h
    · intro p h1 h2 h3
      rw [er] at h1; rw [ed] at h2
      rw [hl]
      by_cases hp : p = nDeq tr + cap
      · subst hp
        have h3 : s.st ((nDeq tr + cap) % cap) = enc w cap (nDeq tr + cap) := h3
        rw [Nat.add_mod_right, hst] at h3
        exact absurd h3.symm (enc_ne_enc_succ hw (by simp))
      · exact hx.free p h1 (by omega) h3
  | elem a p v acc hpc ho hnr hl hacc =>
    refine hx.put hw hi (a := a) (i := p % cap) (by simp [Event.actor]) rfl rfl (by simp) ⟨p, rfl, .inl ho⟩
      ?_ ?_ rfl ?_ ?_
    · intro b hb; exact goto_pc_ne _ _ hb
    · intro j hj; exact upd_ne _ _ hj
    · intro j ns h
      rw [goto_pc_self] at h
      simp only [PC.pushHeld.injEq, reduceCtorEq, or_false] at h
      rw [← h.1]
      show upd s.val (p % cap) (some v) (p % cap) = _
      rw [upd_self]
      rcases hacc with ⟨_, rfl⟩ | ⟨_, rfl⟩ <;> simp
    · intro q h
      rw [goto_pc_self] at h
      simp at h
  | elemPanic0 a p hpc ho hnr hg =>
    exact hx.quiet (a := a) (pc' := .pushPanicked (p % cap)) (by simp [Event.actor]) rfl rfl (by simp)
      trivial rfl rfl rfl
  | elemPanic1 a p v hpc ho hnr hg hl =>
    refine hx.put hw hi (a := a) (i := p % cap) (by simp [Event.actor]) rfl rfl (by simp) ⟨p, rfl, .inl ho⟩
      ?_ ?_ rfl ?_ ?_
    · intro b hb; exact goto_pc_ne _ _ hb
    · intro j hj; exact upd_ne _ _ hj
    · intro j ns h
      rw [goto_pc_self] at h
      simp at h
    · intro q h
      rw [goto_pc_self] at h
      simp at h
  | read a i ns hpc =>
    have ho := hi.own_held hpc
    refine hx.put hw hi (a := a) (i := i) (by simp [Event.actor]) rfl rfl (by simp) ho
      (fun _ _ => rfl) (fun _ _ => rfl) rfl ?_ ?_
    · intro j ns' h
      rw [hx.held a j ns' h]; simp
    · intro q h
      rcases hpc with hpc | hpc <;> rw [hpc] at h <;> simp at h
  | write a i ns v hpc =>
    have ho := hi.own_held hpc
    refine hx.put hw hi (a := a) (i := i) (by simp [Event.actor]) rfl rfl (by simp) ho
      (fun _ _ => rfl) (fun j hj => upd_ne _ _ hj) rfl ?_ ?_
    · intro j ns' h
      have : j = i := by
        rcases hpc with hpc | hpc <;> rcases h with h | h <;> simp_all
      subst this
      simp
    · intro q h
      have h : s.pc a = _ := h
      rcases hpc with hpc | hpc <;> rw [hpc] at h <;> simp at h
  | commit a p hpc ho =>
    generalize hevs : [Event.commit a (p % cap) (s.val (p % cap))] = evs
    have hact : ∀ e ∈ evs, e.actor = a := by subst hevs; simp [Event.actor]
    have er : nRes (tr ++ evs) = nRes tr := by subst hevs; simp [nRes, resOps]
    have ed : nDeq (tr ++ evs) = nDeq tr := by subst hevs; simp [nDeq, deqOps]
    have hl : ∀ i, lastLeft i (tr ++ evs) = lastLeft i tr := by subst hevs; simp
    refine ⟨?_, ?_, ?_⟩
    · intro b i ns h
      by_cases hb : b = a
      · subst hb; simp [State.goto] at h
      · simp only [State.goto, upd_ne _ _ hb] at h
        rw [content_other hact hb]
        exact hx.held b i ns h
    · intro b q h
      by_cases hb : b = a
      · subst hb; simp [State.goto] at h
      · simp only [State.goto, upd_ne _ _ hb] at h
        rw [hl]
        exact hx.ini b q h
    · intro q h1 h2 h3
      rw [er] at h1; rw [ed] at h2
      rw [hl]
      have hp1 := ho.nd; have hp2 := ho.lt; have hle := hi.le; have hge := hi.ge
      have hm : q % cap ≠ p % cap := fun hm => by
        have := mod_inj_window (H := nDeq tr) hm (by omega) (by omega) hp1 (by omega)
        omega
      exact hx.free q h1 h2 ((upd_ne _ _ hm).symm.trans h3)
  | release a p hpc ho =>
    generalize hevs : [Event.release a (p % cap) (s.val (p % cap))] = evs
    have hact : ∀ e ∈ evs, e.actor = a := by subst hevs; simp [Event.actor]
    have er : nRes (tr ++ evs) = nRes tr := by subst hevs; simp [nRes, resOps]
    have ed : nDeq (tr ++ evs) = nDeq tr := by subst hevs; simp [nDeq, deqOps]
    have hl : ∀ i, i ≠ p % cap → lastLeft i (tr ++ evs) = lastLeft i tr := by
      subst hevs; intro i hi; simp [Ne.symm hi]
    have hown : Own cap tr a (p % cap) := ⟨p, rfl, .inr ho⟩
    refine ⟨?_, ?_, ?_⟩
    · intro b i ns h
      by_cases hb : b = a
      · subst hb; simp [State.goto] at h
      · simp only [State.goto, upd_ne _ _ hb] at h
        rw [content_other hact hb]
        exact hx.held b i ns h
    · intro b q h
      by_cases hb : b = a
      · subst hb; simp [State.goto] at h
      · simp only [State.goto, upd_ne _ _ hb] at h
        rw [hl]
        · exact hx.ini b q h
        · intro hm
          exact hb (Own.unique hi (hm ▸ hi.own_init hw h) hown)
    · intro q h1 h2 h3
      rw [er] at h1; rw [ed] at h2
      have h3 : upd s.st (p % cap) _ (q % cap) = _ := h3
      by_cases hm : q % cap = p % cap
      · show s.val _ = _
        rw [hm]
        subst hevs; simp
      · rw [hl _ hm]
        exact hx.free q h1 h2 ((upd_ne _ _ hm).symm.trans h3)

/-- Bookkeeping about element initialisation and closing. -/
structure InvY (tr : Trace V) : Prop where
  noinit : ∀ a, ¬ Returned tr a → inits a tr = []
  one : ∀ a, (inits a tr).length ≤ 1
  pushed : ∀ a, Event.ret a .pushed ∈ tr → (inits a tr).length = 1
  closed : Closed tr → ∃ a, Event.ret a (.closeRet true) ∈ tr

theorem InvY.quiet {tr evs : Trace V} (hy : InvY tr) (hn : ∀ a, inits a evs = [])
    (hp : ∀ a, Event.ret a .pushed ∉ evs) (hc : ¬ Closed evs) : InvY (tr ++ evs) where
  noinit := fun a h => by
    rw [inits_append, hn, List.append_nil]
    exact hy.noinit a (fun hr => h (Returned.append.2 (.inl hr)))
  one := fun a => by rw [inits_append, hn, List.append_nil]; exact hy.one a
  pushed := fun a h => by
    rw [inits_append, hn, List.append_nil]
    exact hy.pushed a ((List.mem_append.1 h).resolve_right (hp a))
  closed := fun h => by
    obtain ⟨a, ha⟩ := hy.closed ((Closed.append.1 h).resolve_right hc)
    exact ⟨a, List.mem_append_left _ ha⟩

theorem InvY.once {tr evs : Trace V} {a : OpId} (hy : InvY tr) (hnr : ¬ Returned tr a)
    (hact : ∀ e ∈ evs, e.actor = a) (hn : (inits a evs).length ≤ 1)
    (hp : Event.ret a .pushed ∈ evs → (inits a evs).length = 1)
    (hr : Returned evs a) (hc : ¬ Closed evs) : InvY (tr ++ evs) where
  noinit := fun b h => by
    have hb : b ≠ a := by rintro rfl; exact h (Returned.append.2 (.inr hr))
    rw [inits_append, inits_other hact hb, List.append_nil]
    exact hy.noinit b (fun hr => h (Returned.append.2 (.inl hr)))
  one := fun b => by
    by_cases hb : b = a
    · subst hb; rw [inits_append, hy.noinit b hnr, List.nil_append]; exact hn
    · rw [inits_append, inits_other hact hb, List.append_nil]; exact hy.one b
  pushed := fun b h => by
    by_cases hb : b = a
    · subst hb; rw [inits_append, hy.noinit b hnr, List.nil_append]
      exact hp ((List.mem_append.1 h).resolve_left (fun hm => hnr ⟨_, hm⟩))
    · rw [inits_append, inits_other hact hb, List.append_nil]
      exact hy.pushed b ((List.mem_append.1 h).resolve_right (fun hm => hb (hact _ hm)))
  closed := fun h => by
    obtain ⟨a, ha⟩ := hy.closed ((Closed.append.1 h).resolve_right hc)
    exact ⟨a, List.mem_append_left _ ha⟩

theorem InvY.pres {tr evs : Trace V} {s s' : State w V} (hy : InvY tr)
    (hs : StepR m w cap tr s s' evs) : InvY (tr ++ evs) := by
  cases hs with
  | invoke a op h => exact hy.quiet (by simp [inits]) (by simp) (by simp [Closed])
  | silent a pc' op hp hn' h => exact hy.quiet (by simp [inits]) (by simp) (by simp [Closed])
  | retn a r op hp hr =>
    refine hy.quiet (by simp [inits]) ?_ (by simp [Closed])
    intro b hb
    simp at hb
    rw [← hb.2] at hr; exact hr.elim
  | reserve a hp hc hlt hst => exact hy.quiet (by simp [inits]) (by simp) (by simp [Closed])
  | dequeue a hp hlt hst => exact hy.quiet (by simp [inits]) (by simp) (by simp [Closed])
  | elem a p v acc hpc ho hnr hl hacc =>
    have h1 : (inits a [Event.access a (p % cap) acc, Event.ret a Ret.pushed]).length = 1 := by
      rcases hacc with ⟨_, rfl⟩ | ⟨_, rfl⟩ <;> simp [inits]
    exact hy.once hnr (by simp [Event.actor]) (by omega) (fun _ => h1) ⟨.pushed, by simp⟩
      (by simp [Closed])
  | elemPanic0 a p hpc ho hnr hg =>
    exact hy.once hnr (by simp [Event.actor]) (by simp [inits]) (by simp) ⟨.panicked, by simp⟩
      (by simp [Closed])
  | elemPanic1 a p v hpc ho hnr hg hl =>
    exact hy.once hnr (by simp [Event.actor]) (by simp [inits]) (by simp) ⟨.panicked, by simp⟩
      (by simp [Closed])
  | read a i ns hpc => exact hy.quiet (by simp [inits]) (by simp) (by simp [Closed])
  | write a i ns v hpc => exact hy.quiet (by simp [inits]) (by simp) (by simp [Closed])
  | commit a p hpc ho => exact hy.quiet (by simp [inits]) (by simp) (by simp [Closed])
  | release a p hpc ho => exact hy.quiet (by simp [inits]) (by simp) (by simp [Closed])
  | close a hp =>
    refine ⟨?_, ?_, ?_, ?_⟩
    · intro b hb
      have := hy.noinit b (fun hr => hb (Returned.append.2 (.inl hr)))
      simpa [inits] using this
    · intro b; simpa [inits] using hy.one b
    · intro b hb
      have := hy.pushed b ((List.mem_append.1 hb).resolve_right (by simp))
      simpa [inits] using this
    · intro _
      by_cases hc : Closed tr
      · obtain ⟨b, hb⟩ := hy.closed hc
        exact ⟨b, List.mem_append_left _ hb⟩
      · refine ⟨a, List.mem_append_right _ ?_⟩
        have : closedB tr = false := by
          cases h : closedB tr
          · rfl
          · exact absurd (closedB_iff.1 h) hc
        simp [this]

theorem InvY.init : InvY ([] : Trace V) where
  noinit := fun _ _ => rfl
  one := fun _ => by simp [inits]
  pushed := fun _ h => by simp at h
  closed := fun ⟨_, h⟩ => by simp at h

/-- Every event of `evs` satisfies `P` at its place, when `evs` comes after `tr`. -/
def AllFrom (P : Trace V → Event V → Prop) : Trace V → Trace V → Prop
  | _, [] => True
  | tr, e :: evs => P tr e ∧ AllFrom P (tr ++ [e]) evs

theorem AllFrom.append {P : Trace V → Event V → Prop} {t u v : Trace V} (h1 : AllFrom P t u)
    (h2 : AllFrom P (t ++ u) v) : AllFrom P t (u ++ v) := by
  induction u generalizing t with
  | nil => simpa using h2
  | cons e u ih => exact ⟨h1.1, ih h1.2 (by simpa using h2)⟩

theorem AllFrom.split {P : Trace V → Event V → Prop} {t pre post : Trace V} {e : Event V}
    (h : AllFrom P t (pre ++ e :: post)) : P (t ++ pre) e := by
  induction pre generalizing t with
  | nil => simpa using h.1
  | cons x pre ih => simpa using ih h.2

/-- What is true at each kind of event. -/
def EvOk (m : Prop) (w cap : Nat) (pre : Trace V) : Event V → Prop
  | .invoke a _ => ¬ Invoked pre a ∧ ¬ Returned pre a ∧ a ∉ resOps pre ∧ a ∉ deqOps pre
  | .reserve a i => Pend pre a .push ∧ ¬ Closed pre ∧ i = nRes pre % cap ∧
      nDeq pre ≤ nRes pre ∧ nRes pre < nDeq pre + cap ∧
      (cap ≤ nRes pre → ∃ b, (deqOps pre)[nRes pre - cap]? = some b ∧ Released pre b)
  | .dequeue a i v => Pend pre a .pop ∧ i = nDeq pre % cap ∧ nDeq pre < nRes pre ∧
      ∃ b x, (resOps pre)[nDeq pre]? = some b ∧ v = some x ∧ Event.commit b i (some x) ∈ pre
  | .access a i k => Own cap pre a i ∧ match k with
      | .create _ => ¬ Returned pre a ∧ inits a pre = [] ∧ ∃ p, (resOps pre)[p]? = some a ∧ i = p % cap ∧
          p / cap % numGens w cap = 0
      | .recycle old _ | .recyclePanic old => ¬ Returned pre a ∧ inits a pre = [] ∧ old = lastLeft i pre ∧
          ∃ p b x, (resOps pre)[p]? = some a ∧ i = p % cap ∧ p / cap % numGens w cap ≠ 0 ∧ cap ≤ p ∧
            (deqOps pre)[p - cap]? = some b ∧ old = some x ∧ Event.release b i (some x) ∈ pre
      | .read v => Returned pre a ∧ v = content a pre ∧ ∃ x, v = some x
      | .write _ => Returned pre a
  | .commit a i v => (∃ p, i = p % cap ∧ PushAt pre a p) ∧ Returned pre a ∧ v = content a pre ∧
      ∃ x, v = some x
  | .release a i v => (∃ p, i = p % cap ∧ PopAt cap pre a p) ∧ Returned pre a ∧ v = content a pre ∧
      ∃ x, v = some x
  | .close a => Event.invoke a (.close false) ∈ pre ∧ ¬ Returned pre a
  | .ret a r => Invoked pre a ∧ ¬ Returned pre a ∧ match r with
      | .pushed => a ∈ resOps pre ∧ Event.invoke a .push ∈ pre
      | .panicked => a ∈ resOps pre ∧ Event.invoke a .push ∈ pre
      | .popped => a ∈ deqOps pre ∧ Event.invoke a .pop ∈ pre
      | .closeRet b => (Event.invoke a (.close true) ∈ pre ∧ b = false) ∨
          (Event.invoke a (.close false) ∈ pre ∧
            ∃ pre0, pre = pre0 ++ [.close a] ∧ (b = true ↔ ¬ Closed pre0))
      | r => a ∉ resOps pre ∧ a ∉ deqOps pre ∧ RetOk m cap pre a r

theorem not_closed_iff {tr : Trace V} : closedB tr = false ↔ ¬ Closed tr := by
  rw [← closedB_iff]; simp

theorem StepR.evOk {tr evs : Trace V} {s s' : State w V} (hw : WellSized w cap) (hi : Inv m w cap tr s)
    (hx : InvX w cap tr s) (hy : InvY tr) (hs : StepR m w cap tr s s' evs) : AllFrom (EvOk m w cap) tr evs := by
  cases hs with
  | invoke a op h =>
    have hpi := hi.pcs a
    rw [h] at hpi
    exact ⟨⟨hpi.1, hpi.2.1, hpi.2.2.1, hpi.2.2.2.1⟩, trivial⟩
  | silent a pc' op hp hn' h => trivial
  | retn a r op hp hr =>
    refine ⟨⟨⟨_, hp.inv⟩, hp.nret, ?_⟩, trivial⟩
    cases r with
    | pushed => exact hr.elim
    | panicked => exact hr.elim
    | popped => exact hr.elim
    | closeRet b => exact .inl hr
    | _ => exact ⟨hp.nres, hp.ndeq, hr⟩
  | reserve a hp hc hlt hst =>
    refine ⟨⟨hp, not_closed_iff.1 hc, rfl, hi.le, hlt, fun hle => ?_⟩, trivial⟩
    rcases hi.free _ (Nat.le_refl _) hlt with ⟨_, hl⟩ | ⟨hcp, hst', _⟩
    · obtain ⟨v, b, h1, -, h3⟩ := hl hle
      exact ⟨b, h1, _, _, h3⟩
    · exact absurd (hst.symm.trans hst') (enc_ne_enc_succ hw (by rw [sub_mod_self hcp]))
  | dequeue a hp hlt hst =>
    refine ⟨⟨hp, rfl, hlt, ?_⟩, ⟨?_, ?_, ?_, ?_⟩, trivial⟩
    · obtain ⟨b, hb⟩ : ∃ b, (resOps tr)[nDeq tr]? = some b := ⟨_, List.getElem?_eq_getElem hlt⟩
      rcases hi.busy _ b (Nat.le_refl _) hb with ⟨h1, v, h2, h3⟩ | ⟨h1, h2, h3⟩
      · exact ⟨b, v, hb, h2, h3⟩
      · exact absurd (h1.symm.trans hst) (enc_ne_enc_succ hw rfl)
    · exact ⟨_, List.mem_append_left _ hp.inv⟩
    · exact fun h => (Returned.append.1 h).elim hp.nret (by simp [Returned])
    · simp [deqOps]
    · exact List.mem_append_left _ hp.inv
  | elem a p v acc hpc ho hnr hl hacc =>
    refine ⟨⟨⟨p, rfl, .inl ho⟩, ?_⟩, ⟨?_, ?_, ?_, ?_⟩, trivial⟩
    · rcases hacc with ⟨hg, rfl⟩ | ⟨hg, rfl⟩
      · exact ⟨hnr, hy.noinit a hnr, p, ho.res, rfl, hg⟩
      · have hge : cap ≤ p := by
          apply Decidable.byContradiction
          intro hlt
          exact hg (by rw [Nat.div_eq_of_lt (by omega), Nat.zero_mod])
        obtain ⟨x, b, h1, h2, h3⟩ := hl hge
        exact ⟨hnr, hy.noinit a hnr, hx.ini a p hpc, p, b, x, ho.res, rfl, hg, hge, h1, h2, h3⟩
    · exact ⟨_, List.mem_append_left _ ho.inv⟩
    · exact fun h => (Returned.append.1 h).elim hnr (by simp [Returned])
    · rw [resOps_append]; exact List.mem_append_left _ (List.mem_of_getElem? ho.res)
    · exact List.mem_append_left _ ho.inv
  | elemPanic0 a p hpc ho hnr hg =>
    exact ⟨⟨⟨_, ho.inv⟩, hnr, List.mem_of_getElem? ho.res, ho.inv⟩, trivial⟩
  | elemPanic1 a p v hpc ho hnr hg hl =>
    refine ⟨⟨⟨p, rfl, .inl ho⟩, ?_⟩, ⟨?_, ?_, ?_, ?_⟩, trivial⟩
    · have hge : cap ≤ p := by
        apply Decidable.byContradiction
        intro hlt
        exact hg (by rw [Nat.div_eq_of_lt (by omega), Nat.zero_mod])
      obtain ⟨x, b, h1, h2, h3⟩ := hl hge
      exact ⟨hnr, hy.noinit a hnr, hx.ini a p hpc, p, b, x, ho.res, rfl, hg, hge, h1, h2, h3⟩
    · exact ⟨_, List.mem_append_left _ ho.inv⟩
    · exact fun h => (Returned.append.1 h).elim hnr (by simp [Returned])
    · rw [resOps_append]; exact List.mem_append_left _ (List.mem_of_getElem? ho.res)
    · exact List.mem_append_left _ ho.inv
  | read a i ns hpc =>
    refine ⟨⟨hi.own_held hpc, ?_, hx.held a i ns hpc, ?_⟩, trivial⟩
    all_goals
      have hpi := hi.pcs a
      rcases hpc with hpc | hpc <;> rw [hpc] at hpi
    · obtain ⟨p, _, h, _⟩ := hpi; exact h
    · obtain ⟨p, h, _⟩ := hpi; exact h.ret
    · obtain ⟨p, _, _, _, _, h⟩ := hpi; exact h
    · obtain ⟨p, _, _, _, h⟩ := hpi; exact h
  | write a i ns v hpc =>
    refine ⟨⟨hi.own_held hpc, ?_⟩, trivial⟩
    have hpi := hi.pcs a
    rcases hpc with hpc | hpc <;> rw [hpc] at hpi
    · obtain ⟨p, _, h, _⟩ := hpi; exact h
    · obtain ⟨p, h, _⟩ := hpi; exact h.ret
  | commit a p hpc ho =>
    refine ⟨⟨⟨p, rfl, ho⟩, ?_, hx.held a _ _ (.inl hpc), ?_⟩, trivial⟩
    all_goals
      have hpi := hi.pcs a
      rw [hpc] at hpi
    · obtain ⟨p, _, h, _⟩ := hpi; exact h
    · obtain ⟨p, _, _, _, _, h⟩ := hpi; exact h
  | release a p hpc ho =>
    refine ⟨⟨⟨p, rfl, ho⟩, ho.ret, hx.held a _ _ (.inr hpc), ?_⟩, trivial⟩
    have hpi := hi.pcs a
    rw [hpc] at hpi
    obtain ⟨p, _, _, _, h⟩ := hpi; exact h
  | close a hp =>
    refine ⟨⟨hp.inv, hp.nret⟩, ⟨?_, ?_, .inr ⟨?_, tr, rfl, ?_⟩⟩, trivial⟩
    · exact ⟨_, List.mem_append_left _ hp.inv⟩
    · exact fun h => (Returned.append.1 h).elim hp.nret (by simp [Returned])
    · exact List.mem_append_left _ hp.inv
    · rw [← not_closed_iff]; simp

/-- Everything we know about an execution. -/
theorem Exec.all {tr : Trace V} {s : State w V} (hw : WellSized w cap) (he : Exec w cap tr s)
    (hn : NoStall w cap tr) : Inv True w cap tr s ∧ InvX w cap tr s ∧ AllFrom (EvOk True w cap) [] tr ∧
      InvY tr := by
  induction he with
  | init => exact ⟨Inv.init hw, InvX.init, trivial, InvY.init⟩
  | step he hs ih =>
    have hn' := NoStall.mono hn
    obtain ⟨h1, h2, h3, h4⟩ := ih hn'
    have hs := step_sound hw h1 hn'.fresh hs
    exact ⟨h1.pres hw hs, h2.pres hw h1 hs, h3.append (by simpa using hs.evOk hw h1 h2 h4),
      h4.pres hs⟩

theorem Exec.evOk {tr : Trace V} {s : State w V} (hw : WellSized w cap) (he : Exec w cap tr s)
    (hn : NoStall w cap tr) {pre post : Trace V} {e : Event V} (h : tr = pre ++ e :: post) :
    EvOk True w cap pre e := by
  have := (he.all hw hn).2.2.1
  rw [h] at this
  simpa using this.split

/-! ### The slots that are initialised -/

theorem mem_createdSlots {tr : Trace V} {i : Nat} :
    i ∈ createdSlots tr ↔ ∃ a v, Event.access a i (.create v) ∈ tr := by
  unfold createdSlots
  rw [List.mem_filterMap]
  constructor
  · rintro ⟨e, he, h⟩
    cases e with
    | access a j k =>
      cases k with
      | create v => simp at h; subst h; exact ⟨a, v, he⟩
      | _ => simp at h
    | _ => simp at h
  · rintro ⟨a, v, h⟩
    exact ⟨_, h, rfl⟩

@[simp] theorem createdSlots_append (t u : Trace V) :
    createdSlots (t ++ u) = createdSlots t ++ createdSlots u := by simp [createdSlots]

/-- A slot is initialised exactly if `new_element` stored an element in it. -/
theorem StepR.val_created {tr evs : Trace V} {s s' : State w V} (hi : Inv m w cap tr s) (ih : ∀ i, s.val i ≠ none ↔ i ∈ createdSlots tr)
    (hs : StepR m w cap tr s s' evs) : ∀ i, s'.val i ≠ none ↔ i ∈ createdSlots (tr ++ evs) := by
  have same : s'.val = s.val → createdSlots evs = [] → ∀ i, s'.val i ≠ none ↔
      i ∈ createdSlots (tr ++ evs) := by
    intro h1 h2 i; rw [h1, createdSlots_append, h2, List.append_nil]; exact ih i
  have put : ∀ j v, s'.val = upd s.val j (some v) → (j ∈ createdSlots tr ∧ createdSlots evs = [] ∨
      createdSlots evs = [j]) → ∀ i, s'.val i ≠ none ↔ i ∈ createdSlots (tr ++ evs) := by
    intro j v h1 h2 i
    rw [h1, createdSlots_append, upd_apply]
    by_cases hij : i = j
    · subst hij
      rcases h2 with ⟨h2, h3⟩ | h2
      · simp [h2]
      · simp [h2]
    · rw [if_neg hij, ih i]
      rcases h2 with ⟨h2, h3⟩ | h2 <;> simp [*]
  cases hs with
  | invoke | silent | retn | reserve | dequeue | elemPanic0 | read | commit | release | close =>
    exact same rfl rfl
  | elem a p v acc hpc ho hnr hl hacc =>
    refine put (p % cap) v rfl ?_
    rcases hacc with ⟨_, rfl⟩ | ⟨hg, rfl⟩
    · exact .inr rfl
    · left
      have hge : cap ≤ p := by
        apply Decidable.byContradiction
        intro hlt
        exact hg (by rw [Nat.div_eq_of_lt (by omega), Nat.zero_mod])
      obtain ⟨x, b, _, h2, _⟩ := hl hge
      exact ⟨(ih _).1 (by rw [h2]; simp), rfl⟩
  | elemPanic1 a p v hpc ho hnr hg hl =>
    refine put (p % cap) v rfl (.inl ?_)
    have hge : cap ≤ p := by
      apply Decidable.byContradiction
      intro hlt
      exact hg (by rw [Nat.div_eq_of_lt (by omega), Nat.zero_mod])
    obtain ⟨x, b, _, h2, _⟩ := hl hge
    exact ⟨(ih _).1 (by rw [h2]; simp), rfl⟩
  | write a i ns v hpc =>
    refine put i v rfl (.inl ⟨?_, rfl⟩)
    have hpi := hi.pcs a
    rcases hpc with hpc | hpc <;> rw [hpc] at hpi
    · obtain ⟨p, _, _, _, _, x, h⟩ := hpi; exact (ih _).1 (by rw [h]; simp)
    · obtain ⟨p, _, _, _, x, h⟩ := hpi; exact (ih _).1 (by rw [h]; simp)

end Thingbuf
