import Verif.ChanSteps

/-!
# Runs of the channel

The executions the properties are about, and what each message of the channel belongs to.
-/

namespace Thingbuf

/-- A push operation has reserved a slot exactly if it succeeded or its user code panicked. -/
theorem Facts.ret_reserved {m : Prop} {w cap : Nat} {V : Type} {tr : Trace V} (h : Facts m w cap tr) {a : OpId} {r : Ret}
    (hr : .ret a r ∈ tr) : a ∈ resOps tr ↔ (r = .pushed ∨ r = .panicked) := by
  obtain ⟨pre, post, htr⟩ := mem_split hr
  have he := h.evOk htr
  constructor
  · intro ha
    obtain ⟨i, hi⟩ := mem_resOps.1 ha
    have hpre : a ∈ resOps pre := by
      rw [htr] at hi
      simp only [List.mem_append, List.mem_cons, reduceCtorEq, false_or] at hi
      rcases hi with hi | hi
      · exact mem_resOps.2 ⟨i, hi⟩
      · obtain ⟨x, y, rfl⟩ := mem_split hi
        have := (h.evOk (pre := pre ++ .ret a r :: x) (e := .reserve a i) (post := y) (by rw [htr]; simp)).1.nret
        exact absurd ⟨r, by simp⟩ this
    have hpush : Event.invoke a .push ∈ tr := by
      obtain ⟨i, hi⟩ := mem_resOps.1 hpre
      obtain ⟨x, y, rfl⟩ := mem_split hi
      have := (h.evOk (pre := x) (e := .reserve a i) (post := y ++ .ret a r :: post) (by rw [htr]; simp)).1.inv
      rw [htr]; simp [this]
    have hin : ∀ op, Event.invoke a op ∈ pre → op = .push := fun op ho =>
      h.invoke_unique (show Event.invoke a op ∈ tr by rw [htr]; simp [ho]) hpush
    cases r with
    | pushed => exact .inl rfl
    | panicked => exact .inr rfl
    | popped => cases hin _ he.2.2.2
    | closeRet b =>
      rcases he.2.2 with h1 | h1
      · cases hin _ h1.1
      · cases hin _ h1.1
    | _ => exact absurd hpre he.2.2.1
  · rintro (rfl | rfl)
    · rw [htr, resOps_append]; simp [he.2.2.1]
    · rw [htr, resOps_append]; simp [he.2.2.1]

theorem Run.ret_reserved {w cap : Nat} {V : Type} {tr : Trace V} {s : State w V} (h : Run w cap tr s) {a : OpId} {r : Ret}
    (hr : .ret a r ∈ tr) : a ∈ resOps tr ↔ (r = .pushed ∨ r = .panicked) := h.facts.ret_reserved hr

end Thingbuf

namespace Thingbuf.Chan

variable {w : Nat} {V W : Type} {c : Config W} {tr : Trace V W} {s : State w V W}

/-- The conditions under which the properties of the channel hold: those of its ring buffer (`Thingbuf.Run`). -/
structure Run (c : Config W) (tr : Trace V W) (s : State w V W) : Prop where
  sized : WellSized w c.cap
  exec : Exec c tr s
  noStall : NoStall w c.cap (coreOf tr)

theorem Run.core (h : Run c tr s) : Thingbuf.Run w c.cap (coreOf tr) s.core := ⟨h.sized, h.exec.core, h.noStall⟩

/-- The earlier part of a run is a run. -/
theorem Run.before {tr0 l : Trace V W} {s0 : State w V W} (h : Run c (tr0 ++ l) s) (h0 : Exec c tr0 s0) : Run c tr0 s0 :=
  ⟨h.sized, h0, NoStall.mono (u := coreOf l) (by rw [← coreOf_append]; exact h.noStall)⟩

/-- The send call of a push operation that reserved a slot. -/
theorem ExecM.sender {m : Bool} {mm : Prop} (h : ExecM m c tr s) (hc : Facts mm w c.cap (coreOf tr)) {a : OpId} (ha : a ∈ resOps (coreOf tr)) :
    ∃ k, .api (.attempt k a) ∈ tr ∧ ((∃ att, s.snd k = .push a att) ∨ .api (.retSend k (.ok a)) ∈ tr ∨ .api (.retSend k .panicked) ∈ tr) ∧
      .core (.ret a .full) ∉ tr := by
  obtain ⟨i, hi⟩ := mem_resOps.1 ha
  have hinv : Event.invoke a .push ∈ coreOf tr := by
    obtain ⟨x, y, hx⟩ := mem_split hi
    have := (hc.evOk hx).1.inv
    rw [hx]; simp [this]
  obtain ⟨k, hk⟩ := h.attInv.call a (mem_coreOf.1 hinv)
  have hret : ∀ r, .core (.ret a r) ∈ tr → r = .pushed ∨ r = .panicked := fun r hr => (hc.ret_reserved (mem_coreOf.2 hr)).1 ha
  have hnf : .core (.ret a .full) ∉ tr := fun hf => by simpa using hret _ hf
  refine ⟨k, hk, ?_, hnf⟩
  have key : ∀ x, OthersFull tr k x → x = some a := fun x hx => by
    rcases Classical.em (some a = x) with e | e
    · exact e.symm
    · exact absurd (hx a e hk) hnf
  have over : (∃ x, OthersFull tr k x ∧ ∀ b, x = some b → Ended tr k b) →
      .api (.retSend k (.ok a)) ∈ tr ∨ .api (.retSend k .panicked) ∈ tr := by
    rintro ⟨x, h1, h2⟩
    obtain ⟨r, h3, h4, _, h5⟩ := h2 a (key x h1)
    rcases hret r h3 with rfl | rfl
    · exact .inl (h4 rfl)
    · exact .inr (h5 (by simp) (by simp) (by simp))
  have hatt := h.attInv.att k
  cases hp : s.snd k <;> rw [hp] at hatt <;> simp only [AttOk] at hatt
  case off => exact absurd hk (hatt a)
  case push b att =>
    have := key _ hatt.2
    cases this
    exact .inl ⟨att, rfl⟩
  all_goals first
    | (cases key _ hatt)
    | exact .inr (over hatt)

theorem Run.sender (h : Run c tr s) {a : OpId} (ha : a ∈ resOps (coreOf tr)) :
    ∃ k, .api (.attempt k a) ∈ tr ∧ ((∃ att, s.snd k = .push a att) ∨ .api (.retSend k (.ok a)) ∈ tr ∨ .api (.retSend k .panicked) ∈ tr) ∧
      .core (.ret a .full) ∉ tr := h.exec.sender h.core.facts ha

/-- What a send call whose message is in the channel has done. -/
theorem ExecM.sender_life {m : Bool} {mm : Prop} (h : ExecM m c tr s) (hc : Facts mm w c.cap (coreOf tr)) {a : OpId} {k : Nat} (ha : a ∈ resOps (coreOf tr)) (hk : .api (.attempt k a) ∈ tr) :
    .api (.cancel k) ∉ tr ∧ (∀ r, .api (.retSend k r) ∈ tr → r = .ok a ∨ r = .panicked) ∧
    ∀ b ∈ resOps (coreOf tr), .api (.attempt k b) ∈ tr → b = a := by
  obtain ⟨k', hk', h1, hnf⟩ := h.sender hc ha
  cases h.attInv.uniq _ _ _ hk hk'
  have hl := h.life k
  have mem : ∀ e, callOf e = some k → (.api e ∈ tr ↔ e ∈ Chan.life k (apiOf tr)) := fun e he => (mem_life he).symm
  have hb : ∀ b ∈ resOps (coreOf tr), .api (.attempt k b) ∈ tr → b = a := by
    intro b hb hkb
    have hnfb : .core (.ret b .full) ∉ tr := by
      obtain ⟨_, _, _, h2⟩ := h.sender hc hb
      exact h2
    have hatt := h.attInv.att k
    have key : ∀ x, OthersFull tr k x → b = a := fun x hx => by
      have e1 : some a = x := Classical.byContradiction fun e => hnf (hx a e hk)
      have e2 : some b = x := Classical.byContradiction fun e => hnfb (hx b e hkb)
      rw [← e2] at e1; cases e1; rfl
    cases hp : s.snd k <;> rw [hp] at hatt <;> simp only [AttOk] at hatt
    case off => exact absurd hk (hatt a)
    case push => exact key _ hatt.2
    all_goals first
      | exact key _ hatt
      | (obtain ⟨x, hx, _⟩ := hatt; exact key x hx)
  refine ⟨?_, ?_, hb⟩
  · intro hcn
    rw [mem _ rfl] at hcn
    rcases h1 with ⟨att, hp⟩ | hr | hr
    · rw [hp] at hl; obtain ⟨_, _, hl⟩ := hl; rw [hl] at hcn; simp at hcn
    all_goals
      rw [mem _ rfl] at hr
      cases hp : s.snd k <;> rw [hp] at hl <;> simp only [LifeOk] at hl
      all_goals first
        | (rw [hl] at hr; simp at hr; done)
        | (obtain ⟨_, _, hl⟩ := hl; rw [hl] at hr hcn; simp at hr hcn; done)
        | (obtain ⟨_, _, _, hl⟩ := hl; rw [hl] at hr hcn; simp at hr hcn; done)
        | (obtain ⟨_, _, ⟨_, _, hl⟩ | hl | ⟨_, hl⟩⟩ := hl <;> rw [hl] at hr hcn <;> simp at hr hcn; done)
  · intro r hr'
    rw [mem _ rfl] at hr'
    rcases h1 with ⟨att, hp⟩ | hr | hr
    · rw [hp] at hl; obtain ⟨_, _, hl⟩ := hl; rw [hl] at hr'; simp at hr'
    · left
      rw [mem _ rfl] at hr
      cases hp : s.snd k <;> rw [hp] at hl <;> simp only [LifeOk] at hl
      all_goals first
        | (rw [hl] at hr; simp at hr; done)
        | (obtain ⟨_, _, hl⟩ := hl; rw [hl] at hr hr'; simp at hr hr'; done)
        | (obtain ⟨_, _, hl⟩ := hl; rw [hl] at hr hr'; simp at hr hr'; subst hr; exact hr')
        | (obtain ⟨_, _, _, hl⟩ := hl; rw [hl] at hr hr'; simp at hr hr'; subst hr; exact hr')
        | (obtain ⟨_, _, ⟨_, _, hl⟩ | hl | ⟨_, hl⟩⟩ := hl
           · rw [hl] at hr hr'; simp at hr hr'; rw [hr', hr]
           · rw [hl] at hr hr'; simp at hr hr'
           · rw [hl] at hr hr'; simp at hr hr'; rw [hr', hr])
    · right
      rw [mem _ rfl] at hr
      cases hp : s.snd k <;> rw [hp] at hl <;> simp only [LifeOk] at hl
      all_goals first
        | (rw [hl] at hr; simp at hr; done)
        | (obtain ⟨_, _, hl⟩ := hl; rw [hl] at hr hr'; simp at hr hr'; done)
        | (obtain ⟨_, _, _, hl⟩ := hl; rw [hl] at hr hr'; simp at hr hr'; done)
        | (obtain ⟨_, _, ⟨_, _, hl⟩ | hl | ⟨_, hl⟩⟩ := hl
           · rw [hl] at hr hr'; simp at hr hr'; rw [hr', hr]
           · rw [hl] at hr hr'; simp at hr hr'
           · rw [hl] at hr hr'; simp at hr hr')

theorem Run.sender_life (h : Run c tr s) {a : OpId} {k : Nat} (ha : a ∈ resOps (coreOf tr)) (hk : .api (.attempt k a) ∈ tr) :
    .api (.cancel k) ∉ tr ∧ (∀ r, .api (.retSend k r) ∈ tr → r = .ok a ∨ r = .panicked) ∧
    ∀ b ∈ resOps (coreOf tr), .api (.attempt k b) ∈ tr → b = a := h.exec.sender_life h.core.facts ha hk

end Thingbuf.Chan
