import Verif.ChanLinSpec
import Verif.ChanTry
import Verif.Lin
/-
Linearizability of the channel (C59): the proof. The points of the ring buffer's operations (C58) are put into the
history of the channel, and become the points of the calls that the operations belong to.
-/
namespace Thingbuf.Chan

variable {w : Nat} {V W : Type} {c : Config W} {tr : Trace V W} {s : State w V W}

/-! ### The history of the channel with the points of the ring buffer -/

abbrev Mix (V W : Type) := List (Ev V W ⊕ Label V)

def Mix.evs (M : Mix V W) : Trace V W := M.filterMap Sum.getLeft?

def mixCore : Ev V W ⊕ Label V → Option (Event V ⊕ Label V)
  | .inl (.core e) => some (.inl e)
  | .inl _ => none
  | .inr l => some (.inr l)

def Mix.core (M : Mix V W) : Marked V := M.filterMap mixCore

@[simp] theorem Mix.evs_append (A B : Mix V W) : Mix.evs (A ++ B) = Mix.evs A ++ Mix.evs B := List.filterMap_append ..
@[simp] theorem Mix.core_append (A B : Mix V W) : Mix.core (A ++ B) = Mix.core A ++ Mix.core B := List.filterMap_append ..
@[simp] theorem Mix.evs_nil : Mix.evs ([] : Mix V W) = [] := rfl
@[simp] theorem Mix.core_nil : Mix.core ([] : Mix V W) = [] := rfl
@[simp] theorem Mix.evs_inl (e : Ev V W) (A : Mix V W) : Mix.evs (.inl e :: A) = e :: Mix.evs A := rfl
@[simp] theorem Mix.evs_inr (l : Label V) (A : Mix V W) : Mix.evs (.inr l :: A) = Mix.evs A := rfl
@[simp] theorem Mix.core_inl (e : Event V) (A : Mix V W) : Mix.core (.inl (.core e) :: A) = .inl e :: Mix.core A := rfl
@[simp] theorem Mix.core_inr (l : Label V) (A : Mix V W) : Mix.core (.inr l :: A) = .inr l :: Mix.core A := rfl
theorem Mix.core_other {e : Ev V W} (he : ∀ x, e ≠ .core x) (A : Mix V W) : Mix.core (.inl e :: A) = Mix.core A := by
  cases e with
  | core x => exact absurd rfl (he x)
  | _ => rfl

theorem mem_mixEvs {e : Ev V W} {M : Mix V W} : e ∈ Mix.evs M ↔ .inl e ∈ M := by
  simp only [Mix.evs, List.mem_filterMap]
  constructor
  · rintro ⟨x, hx, h⟩; cases x <;> simp at h; subst h; exact hx
  · exact fun h => ⟨_, h, rfl⟩

theorem mixCore_inr {l : Label V} {M : Mix V W} : .inr l ∈ Mix.core M ↔ .inr l ∈ M := by
  simp only [Mix.core, List.mem_filterMap]
  constructor
  · rintro ⟨x, hx, h⟩
    rcases x with (e | e | e | e) | x <;> simp [mixCore] at h
    subst h; exact hx
  · exact fun h => ⟨_, h, rfl⟩

theorem mixCore_events (M : Mix V W) : Marked.events (Mix.core M) = coreOf (Mix.evs M) := by
  induction M with
  | nil => rfl
  | cons x M ih =>
    rcases x with (e | e | e | e) | x
    · show e :: Marked.events (Mix.core M) = e :: coreOf (Mix.evs M); rw [ih]
    · exact ih
    · exact ih
    · exact ih
    · exact ih

/-- The trace ends, or goes on with an event of the ring buffer. -/
def CoreFirst (t : Trace V W) : Prop := t = [] ∨ ∃ e t', t = .core e :: t'

/-- A marked history of the ring buffer that starts with the event `e`, up to some points. -/
theorem marked_cons {L : Marked V} {e : Event V} {t : Thingbuf.Trace V} (h : Marked.events L = e :: t) :
    ∃ (ls : List (Label V)) (L' : Marked V), L = ls.map .inr ++ .inl e :: L' ∧ Marked.events L' = t := by
  induction L with
  | nil => cases h
  | cons x L ih =>
    rcases x with x | l
    · have h : x :: Marked.events L = e :: t := h
      injection h with h1 h2
      subst h1
      exact ⟨[], L, rfl, h2⟩
    · obtain ⟨ls, L', rfl, h2⟩ := ih h
      exact ⟨l :: ls, L', rfl, h2⟩

theorem marked_nil {L : Marked V} (h : Marked.events L = []) : ∃ ls : List (Label V), L = ls.map .inr := by
  induction L with
  | nil => exact ⟨[], rfl⟩
  | cons x L ih =>
    rcases x with x | l
    · cases h
    · obtain ⟨ls, rfl⟩ := ih h
      exact ⟨l :: ls, rfl⟩

theorem mix_labels (ls : List (Label V)) : Mix.evs (ls.map .inr : Mix V W) = [] ∧ Mix.core (ls.map .inr : Mix V W) = ls.map .inr := by
  induction ls with
  | nil => exact ⟨rfl, rfl⟩
  | cons l ls ih => simp [ih.1, ih.2]

/-- The points of the ring buffer, put into the history of the channel, each as late as possible. -/
theorem mix_exists (tr : Trace V W) : ∀ (L : Marked V), Marked.events L = coreOf tr →
    ∃ M : Mix V W, Mix.evs M = tr ∧ Mix.core M = L ∧
      ∀ M₁ l M₂, M = M₁ ++ .inr l :: M₂ → CoreFirst (Mix.evs M₂) := by
  induction tr with
  | nil =>
    intro L h
    obtain ⟨ls, rfl⟩ := marked_nil h
    refine ⟨ls.map .inr, (mix_labels ls).1, (mix_labels ls).2, fun M₁ l M₂ he => .inl ?_⟩
    have h1 := (mix_labels (W := W) ls).1
    rw [he] at h1
    simp at h1
    exact h1.2
  | cons e tr ih =>
    intro L h
    by_cases hc : ∃ x, e = .core x
    · obtain ⟨x, rfl⟩ := hc
      obtain ⟨ls, L', rfl, h2⟩ := marked_cons (show Marked.events L = x :: coreOf tr from h)
      obtain ⟨M, h3, h4, h5⟩ := ih L' h2
      refine ⟨ls.map .inr ++ .inl (.core x) :: M, by simp [(mix_labels ls).1, h3], by simp [(mix_labels ls).2, h4], ?_⟩
      intro M₁ l M₂ he
      rcases append_split he with ⟨post, h6, h7⟩ | ⟨e1, h6, h7⟩
      · right
        have h8 := (mix_labels (W := W) ls).1
        rw [h7] at h8
        simp at h8
        rw [h6]
        exact ⟨x, Mix.evs M, by simp [h8.2]⟩
      · cases e1 with
        | nil => simp at h6
        | cons y e1 =>
          injection h6 with h8 h9
          exact h5 e1 l M₂ h9
    · have hc' : ∀ x, e ≠ .core x := fun x hx => hc ⟨x, hx⟩
      have h' : Marked.events L = coreOf tr := by
        rw [h]
        cases e with
        | core x => exact absurd rfl (hc' x)
        | _ => rfl
      obtain ⟨M, h3, h4, h5⟩ := ih L h'
      refine ⟨.inl e :: M, by simp [h3], by rw [Mix.core_other hc', h4], ?_⟩
      intro M₁ l M₂ he
      cases M₁ with
      | nil => simp at he
      | cons y M₁ =>
        injection he with h6 h7
        exact h5 M₁ l M₂ h7

/-! ### The state at a point -/

/-- Where an event of the ring buffer follows, nothing but events of the ring buffer is new since the last state. -/
theorem ExecM.cut (h : Exec c tr s) {t u : Trace V W} (htr : tr = t ++ u) (hu : CoreFirst u) :
    ∃ (tr0 : Trace V W) (s0 : State w V W) (m : List (Event V)), Exec c tr0 s0 ∧ t = tr0 ++ m.map .core ∧
      ∀ a op, .invoke a op ∉ m := by
  rcases hu with rfl | ⟨e, u, rfl⟩
  · rw [List.append_nil] at htr
    exact ⟨tr, s, [], h, by simp [htr], by simp⟩
  · obtain ⟨tr0, s0, s1, l, r, rest, h1, h2, h3, rfl, rfl⟩ := h.at htr
    generalize hg : l ++ Ev.core e :: r = evs at h2
    cases h2 with
    | api hm => cases l <;> simp at hg
    | @core act s1 evs t es hs hm =>
      obtain ⟨e1, e2, rfl, rfl, rfl⟩ := core_split hg
      refine ⟨tr0, s0, e1, h1, rfl, fun a op hi => ?_⟩
      have hev := core_evs hs
      have := (hev.inv a op).1 (List.mem_append_left _ hi)
      subst this
      obtain ⟨-, hx⟩ := invoke_idle hs
      cases e1 with
      | nil => cases hi
      | cons y e1 => have := congrArg List.length hx; simp at this
    | @cell act s1 evs t es hs hm =>
      have : Ev.core e ∈ List.map Ev.cell evs ++ List.map Ev.api es := by rw [← hg]; simp
      simp at this
    | @queue act s1 evs t es hs hm =>
      have : Ev.core e ∈ List.map Ev.queue evs ++ List.map Ev.api es := by rw [← hg]; simp
      simp at this

def opKind : Op → Option CK
  | .push => some .push
  | .pop => some .pop
  | .close _ => some .close
  | .len => none

/-- An operation of the ring buffer that has been called and has not returned. -/
theorem Run.running (h : Run c tr s) {a : OpId} {op : Op} (hi : .invoke a op ∈ coreOf tr) (hr : ¬ Thingbuf.Returned (coreOf tr) a)
    (ho : op ≠ .len) : coreKind (s.core.pc a) = opKind op := by
  have h2 := h.core.inv.pcs a
  have key : ∀ op', Pend (coreOf tr) a op' → op' = op := fun op' hp => h.core.invoke_unique hp.inv hi
  have key2 : ∀ p, PushAt (coreOf tr) a p → op = .push := fun p hp => h.core.invoke_unique hi hp.inv
  cases hp : s.core.pc a <;> simp only [hp, pcInv] at h2
  case idle => exact absurd ⟨op, hi⟩ h2.1
  case done => exact absurd h2.2.1 hr
  case pushStart => rw [← key _ h2]; rfl
  case pushReload => rw [← key _ h2]; rfl
  case pushLoop => rw [← key _ h2.1]; rfl
  case pushCas => rw [← key _ h2.1]; rfl
  case pushHead => rw [← key _ h2.1]; rfl
  case pushInit => obtain ⟨p, h3, -⟩ := h2; rw [key2 p h3]; rfl
  case pushHeld => obtain ⟨p, -, h3, -⟩ := h2; exact absurd h3 hr
  case pushPanicked => obtain ⟨p, -, h3, -⟩ := h2; exact absurd h3 hr
  case popStart => rw [← key _ h2]; rfl
  case popReload => rw [← key _ h2]; rfl
  case popLoop => rw [← key _ h2.1]; rfl
  case popCas => rw [← key _ h2.1]; rfl
  case popTail => rw [← key _ h2.1]; rfl
  case popHeld => obtain ⟨p, h3, -⟩ := h2; exact absurd h3.ret hr
  case lenStart => exact absurd (key _ h2).symm ho
  case lenHead => exact absurd (key _ h2.1).symm ho
  case lenTail => exact absurd (key _ h2.1).symm ho
  case closeStart => rw [← key _ h2]; rfl

/-! ### The receive call in progress -/

/-- No receive call starts or ends. -/
def NoRx (l : Trace V W) : Prop := ∀ e, .api e ∈ l → ¬ RecvCall e ∧ ¬ RecvRet e

theorem NoRx.append {l l' : Trace V W} (h : NoRx l) (h' : NoRx l') : NoRx (l ++ l') := fun e he =>
  (List.mem_append.1 he).elim (h e) (h' e)

/-- A receive call is in progress. -/
def InCall (tr : Trace V W) : Prop := ∃ A e B, tr = A ++ .api e :: B ∧ RecvCall e ∧ NoRx B

/-- What the history says about the receive call in progress. -/
def RxLive (tr : Trace V W) : RPC W → Prop
  | .pop a _ | .pop2 a _ | .last a => InCall tr ∧ ∃ p q, tr = p ++ .core (.invoke a .pop) :: q ∧ NoRx q
  | .tryPop a _ => ∃ p q, tr = p ++ .core (.invoke a .pop) :: .api .callTry :: q ∧ NoRx q
  | .toPop _ | .toWait _ | .wait _ _ | .toPop2 _ | .toLast => InCall tr
  | _ => True

theorem InCall.mono {l : Trace V W} (h : InCall tr) (hl : NoRx l) : InCall (tr ++ l) := by
  obtain ⟨A, e, B, rfl, h1, h2⟩ := h
  exact ⟨A, e, B ++ l, by simp, h1, h2.append hl⟩

theorem RxLive.mono {p : RPC W} {l : Trace V W} (h : RxLive tr p) (hl : NoRx l) : RxLive (tr ++ l) p := by
  cases p <;> simp only [RxLive] at h ⊢
  case tryPop => obtain ⟨p, q, rfl, h1⟩ := h; exact ⟨p, q ++ l, by simp, h1.append hl⟩
  case pop | pop2 | last =>
    obtain ⟨h0, p, q, rfl, h1⟩ := h
    exact ⟨h0.mono hl, p, q ++ l, by simp, h1.append hl⟩
  all_goals exact h.mono hl

theorem RxLive.inCall {a : OpId} {p : RPC W} (h : RxLive tr p) (ha : rxCore p = some (a, .pop)) : InCall tr := by
  cases p <;> simp [rxCore] at ha <;> simp only [RxLive] at h
  case tryPop =>
    obtain ⟨p, q, rfl, h1⟩ := h
    exact ⟨p ++ [.core (.invoke a .pop)], .callTry, q, by simp [ha], .inr rfl, h1⟩
  all_goals exact h.1

theorem noRx_simp {l : Trace V W} (h : ∀ v, .api (.callPoll v) ∉ l) (h1 : .api .callTry ∉ l) (h2 : ∀ r, .api (.retPoll r) ∉ l)
    (h3 : ∀ r, .api (.retTry r) ∉ l) : NoRx l := by
  intro e he
  refine ⟨?_, ?_⟩
  · rintro (⟨v, rfl⟩ | rfl)
    · exact h v he
    · exact h1 he
  · rintro (⟨r, rfl⟩ | ⟨r, rfl⟩)
    · exact h2 r he
    · exact h3 r he

theorem ExecM.rxLive (h : Exec c tr s) : RxLive tr s.rx := by
  refine Exec.ind (P := fun tr s => RxLive tr s.rx) ?_ ?_ ?_ ?_ ?_ tr s h
  · trivial
  · intro tr s t e he ih hm
    cases hm
    case poll p v hp => exact ⟨tr, .callPoll v, [], by simp, .inl ⟨v, rfl⟩, by intro e he; cases he⟩
    case dropRx => trivial
    all_goals exact ih.mono (noRx_simp (by simp) (by simp) (by simp) (by simp))
  · intro tr s act s1 evs r t es he ih h1 hr hm
    cases hm
    case tryRecv p a hp =>
      obtain ⟨-, rfl⟩ := invoke_idle h1
      exact ⟨tr, [], by simp, by intro e he; cases he⟩
    case toPop v o hp | toPop2 v o hp | toLast o hp =>
      obtain ⟨-, rfl⟩ := invoke_idle h1
      rw [hp] at ih
      exact ⟨InCall.mono ih (noRx_simp (by simp) (by simp) (by simp) (by simp)), tr, [], by simp, by intro e he; cases he⟩
    case popEmpty a v spur r hp _ _ =>
      rw [hp] at ih
      exact InCall.mono ih.1 (noRx_simp (by simp) (by simp) (by simp) (by simp))
    all_goals first
      | exact ih.mono (noRx_simp (by simp) (by simp) (by simp) (by simp))
      | trivial
  · intro tr s act s1 evs t es he ih h1 hm
    cases hm
    case wait v o hp | waitWait o v hp _ | waitClosed o v hp _ | waitNotified o v hp _ =>
      rw [hp] at ih
      exact InCall.mono ih (noRx_simp (by simp) (by simp) (by simp) (by simp))
    all_goals first
      | exact ih.mono (noRx_simp (by simp) (by simp) (by simp) (by simp))
      | trivial
  · intro tr s act s1 evs t es he ih h1 hm
    cases hm <;> first
      | exact ih.mono (noRx_simp (by simp) (by simp) (by simp) (by simp))
      | trivial

/-! ### The attempts of a send call -/

def RetryOk (s : State w V W) : Prop := ∀ k att, s.snd k = .retry att → att ≠ .only

theorem RetryOk.upd {t : State w V W} {j : Nat} {p : SPC} (h : RetryOk s) (ht : t.snd = Thingbuf.upd s.snd j p)
    (hp : ∀ att, p = .retry att → att ≠ .only) : RetryOk t := by
  intro k att hk
  rw [ht, upd_apply] at hk
  split at hk
  · exact hp _ hk
  · exact h k att hk

theorem ExecM.retryOk (h : Exec c tr s) : RetryOk s := by
  refine Exec.ind (P := fun tr s => RetryOk s) ?_ ?_ ?_ ?_ ?_ tr s h
  · intro k att hk; cases hk
  · intro tr s t e he ih hm
    cases hm <;> first | exact ih | exact ih.upd rfl (by intro att h; cases h <;> simp)
  · intro tr s act s1 evs r t es he ih h1 hr hm
    cases hm <;> first | exact ih | exact ih.upd rfl (by intro att h; cases h <;> simp)
  · intro tr s act s1 evs t es he ih h1 hm
    cases hm <;> first | exact ih | exact ih.upd rfl (by intro att h; cases h <;> simp)
  · intro tr s act s1 evs t es he ih h1 hm
    cases hm <;> first | exact ih | exact ih.upd rfl (by intro att h; cases h <;> simp)

/-- A call with two attempts is one that waits. -/
theorem ExecM.attempts (h : Exec c tr s) : ∀ k a b, .api (.attempt k a) ∈ tr → .api (.attempt k b) ∈ tr → a ≠ b →
    ∃ z, .api (.callSend k z true) ∈ tr := by
  have same : ∀ {tr evs : Trace V W}, (∀ k a b, .api (.attempt k a) ∈ tr → .api (.attempt k b) ∈ tr → a ≠ b →
      ∃ z, .api (.callSend k z true) ∈ tr) → (∀ k a, .api (.attempt k a) ∉ evs) →
      (∀ k a b, .api (.attempt k a) ∈ tr ++ evs → .api (.attempt k b) ∈ tr ++ evs → a ≠ b →
      ∃ z, .api (.callSend k z true) ∈ tr ++ evs) := by
    intro tr evs ih hn k a b ha hb hab
    obtain ⟨z, hz⟩ := ih k a b ((List.mem_append.1 ha).resolve_right (hn _ _)) ((List.mem_append.1 hb).resolve_right (hn _ _)) hab
    exact ⟨z, List.mem_append_left _ hz⟩
  refine Exec.ind (P := fun tr s => ∀ k a b, .api (.attempt k a) ∈ tr → .api (.attempt k b) ∈ tr → a ≠ b →
    ∃ z, .api (.callSend k z true) ∈ tr) ?_ ?_ ?_ ?_ ?_ tr s h
  · intro k a b ha; cases ha
  · intro tr s t e he ih hm
    cases hm <;> exact same ih (by simp)
  · intro tr s act s1 evs r t es he ih h1 hr hm
    cases hm
    case send j x wait o hp hx =>
      intro k a b ha hb hab
      have hno := he.attInv.att j
      rw [hp] at hno
      by_cases hk : k = j
      · subst hk
        have ha := (List.mem_append.1 ha).resolve_left (hno a)
        have hb := (List.mem_append.1 hb).resolve_left (hno b)
        simp at ha hb
        exact absurd (ha.trans hb.symm) hab
      · have ha := (List.mem_append.1 ha).resolve_right (by simp [hk])
        have hb := (List.mem_append.1 hb).resolve_right (by simp [hk])
        obtain ⟨z, hz⟩ := ih k a b ha hb hab
        exact ⟨z, List.mem_append_left _ hz⟩
    case retry j att o hp =>
      intro k a b ha hb hab
      by_cases hk : k = j
      · subst hk
        have := he.retryOk k att hp
        obtain ⟨z, hz⟩ := he.kind k true (by rw [hp]; cases att <;> simp [SPC.waits, Att.waits] at this ⊢)
        exact ⟨z, List.mem_append_left _ hz⟩
      · have ha := (List.mem_append.1 ha).resolve_right (by simp [hk])
        have hb := (List.mem_append.1 hb).resolve_right (by simp [hk])
        obtain ⟨z, hz⟩ := ih k a b ha hb hab
        exact ⟨z, List.mem_append_left _ hz⟩
    all_goals exact same ih (by simp)
  · intro tr s act s1 evs t es he ih h1 hm
    cases hm <;> exact same ih (by simp)
  · intro tr s act s1 evs t es he ih h1 hm
    cases hm <;> exact same ih (by simp)

/-- The wait queue is closed only after the ring buffer was. -/
theorem ExecM.qclose_after (h : Exec c tr s) : ∀ o, .queue (.callClose o) ∈ tr → ∃ a, .core (.ret a (.closeRet true)) ∈ tr := by
  have same : ∀ {tr evs : Trace V W}, (∀ o, .queue (.callClose o) ∈ tr → ∃ a, .core (.ret a (.closeRet true)) ∈ tr) →
      (∀ o, .queue (.callClose o) ∉ evs) → ∀ o, .queue (.callClose o) ∈ tr ++ evs → ∃ a, .core (.ret a (.closeRet true)) ∈ tr ++ evs := by
    intro tr evs ih hn o ho
    obtain ⟨a, ha⟩ := ih o ((List.mem_append.1 ho).resolve_right (hn o))
    exact ⟨a, List.mem_append_left _ ha⟩
  refine Exec.ind (P := fun tr s => ∀ o, .queue (.callClose o) ∈ tr → ∃ a, .core (.ret a (.closeRet true)) ∈ tr) ?_ ?_ ?_ ?_ ?_ tr s h
  · intro o ho; cases ho
  · intro tr s t e he ih hm
    exact same ih (by simp)
  · intro tr s act s1 evs r t es he ih h1 hr hm
    exact same ih (by simp)
  · intro tr s act s1 evs t es he ih h1 hm
    exact same ih (by simp)
  · intro tr s act s1 evs t es he ih h1 hm
    have hev := queue_evs h1
    cases hm
    case close o hp =>
      have h0 := he.rxInv.hist
      rw [hp] at h0
      obtain ⟨pan, a, -, -, h4⟩ := h0
      exact fun _ _ => ⟨a, List.mem_append_left _ h4⟩
    all_goals exact same ih (by simp [hev.close])

/-- An operation of the ring buffer returns with the last event of a step. -/
theorem core_ret_last {cap : Nat} {s s' : Thingbuf.State w V} {act : Thingbuf.Act V} {evs : List (Event V)} {r : Ret}
    (h : Thingbuf.step cap s act = some (s', evs)) (hr : coreRet evs = some r) :
    ∃ e1, evs = e1 ++ [.ret (actOp act) r] := by
  have key : ∀ (a : OpId) (e1 : List (Event V)) (r' : Ret), coreRet (e1 ++ [.ret a r']) = some r → coreRet e1 = none →
      ∃ e2, e1 ++ [.ret a r'] = e2 ++ [Event.ret a r] := by
    intro a e1 r' h1 h2
    refine ⟨e1, ?_⟩
    simp only [coreRet, List.findSome?_append] at h1 h2
    rw [h2] at h1
    simp at h1
    rw [h1]
  cases act with
  | invoke a op =>
    obtain ⟨-, rfl⟩ := invoke_idle h
    cases hr
  | run a =>
    simp only [Thingbuf.step, runStep] at h
    split at h <;> try (cases h; done)
    all_goals try simp only [pushLoop, pushCas, pushHead, popLoop, popCas, popTail, closeStep, Option.some.injEq] at h
    all_goals
      repeat' split at h
      all_goals first
        | (cases h; cases hr; done)
        | (cases h; exact key a [] _ hr rfl)
        | (cases h; exact key a [_] _ hr rfl)
        | (cases h; exact key a [_, _] _ hr rfl)
  | spurious a =>
    simp only [Thingbuf.step] at h
    split at h <;> try (cases h; done)
    all_goals simp only [pushCas, popCas, Option.some.injEq] at h
    all_goals
      repeat' split at h
      all_goals first
        | (cases h; cases hr; done)
        | (cases h; exact key a [] _ hr rfl)
        | (cases h; exact key a [_] _ hr rfl)
  | elem a v =>
    simp only [Thingbuf.step] at h
    split at h <;> try (cases h; done)
    all_goals simp only [pushElem, Option.some.injEq] at h
    all_goals
      repeat' split at h
      all_goals first
        | (cases h; cases hr; done)
        | (cases h; exact key a [] _ hr rfl)
        | (cases h; exact key a [_] _ hr rfl)
        | (cases h; exact key a [_, _] _ hr rfl)
  | elemPanic a v =>
    simp only [Thingbuf.step] at h
    split at h <;> try (cases h; done)
    all_goals simp only [pushElemPanic, Option.some.injEq] at h
    all_goals
      repeat' split at h
      all_goals first
        | (cases h; cases hr; done)
        | (cases h; exact key a [] _ hr rfl)
        | (cases h; exact key a [_] _ hr rfl)
        | (cases h; exact key a [_, _] _ hr rfl)
  | read a =>
    simp only [Thingbuf.step] at h
    split at h <;> cases h <;> cases hr
  | write a v =>
    simp only [Thingbuf.step] at h
    split at h <;> cases h <;> cases hr
  | dropRef a =>
    simp only [Thingbuf.step] at h
    split at h <;> cases h <;> cases hr

/-- How a receive call returns, given what its last pop operation returned. -/
def RetOf (a : OpId) (r : Ret) (last : Prop) (e : Api W) : Prop :=
  (r = .popped ∧ (e = .retPoll (.some a) ∨ e = .retTry (.ok a))) ∨
  (r = .closed ∧ (e = .retPoll .none ∨ e = .retTry .closed)) ∨
  (r ≠ .popped ∧ r ≠ .closed ∧ (e = .retPoll .pending ∨ e = .retTry .empty)) ∨
  (r ≠ .popped ∧ r ≠ .closed ∧ e = .retPoll .none ∧ last)

/-- A receive call returns directly after its last pop operation. -/
theorem ExecM.recv_ret (h : Exec c tr s) {pre post : Trace V W} {e : Api W} (htr : tr = pre ++ .api e :: post) (he : RecvRet e) :
    ∃ (tr0 : Trace V W) (s0 : State w V W) (a : OpId) (r : Ret) (m : List (Event V)), Exec c tr0 s0 ∧ rxCore s0.rx = some (a, .pop) ∧
      pre = tr0 ++ (m.map .core ++ [.core (.ret a r)]) ∧ RetOf a r (s0.rx = .last a) e := by
  obtain ⟨tr0, l, s0, s1, h0, rfl, h1, h2, h3⟩ := h.at_api htr (by rcases he with ⟨r, rfl⟩ | ⟨r, rfl⟩ <;> simp)
  cases h1 with
  | api hm hl hr hs => rcases he with ⟨r, rfl⟩ | ⟨r, rfl⟩ <;> cases hm
  | @core act s1 evs t es1 es2 h1 hm hl hr hs =>
    generalize hes : es1 ++ e :: es2 = es at hm
    have hmem : e ∈ es := by rw [← hes]; simp
    generalize hret : coreRet _ = ret at hm
    have hlast : ∀ r, ret = some r → es1 = [] → ∃ m : List (Event V), l = m.map .core ++ [.core (.ret (actOp act) r)] := by
      intro r hr h0
      subst hr h0
      obtain ⟨m, rfl⟩ := core_ret_last h1 hret
      exact ⟨m, by rw [hl]; simp⟩
    have hes1 : ∀ x, es = [x] → es1 = [] := by
      intro x hx
      rw [hx] at hes
      cases es1 with
      | nil => rfl
      | cons y es1 => have := congrArg List.length hes; simp at this
    cases hm <;> simp at hmem <;> try (subst hmem; rcases he with ⟨r, he⟩ | ⟨r, he⟩ <;> cases he; done)
    case send => rcases hmem with rfl | rfl <;> rcases he with ⟨r, he⟩ | ⟨r, he⟩ <;> cases he
    all_goals
      obtain ⟨m, hm⟩ := hlast _ rfl (hes1 _ rfl)
      rw [actOp_runAct] at hm
      refine ⟨tr0, s0, _, _, m, h0, by simp only [*]; rfl, by rw [hm], ?_⟩
      simp_all [RetOf]
    by_cases hcl : ‹Ret› = .closed
    · exact .inl hcl
    · exact .inr hcl
  | cell es1 es2 h1 hm hl hr hs =>
    generalize hes : es1 ++ e :: es2 = es at hm
    have hmem : e ∈ es := by rw [← hes]; simp
    cases hm <;> simp at hmem <;> (subst hmem; rcases he with ⟨r, he⟩ | ⟨r, he⟩ <;> cases he)
  | queue es1 es2 h1 hm hl hr hs =>
    generalize hes : es1 ++ e :: es2 = es at hm
    have hmem : e ∈ es := by rw [← hes]; simp
    cases hm <;> simp at hmem <;> (subst hmem; rcases he with ⟨r, he⟩ | ⟨r, he⟩ <;> cases he)

/-! ### From the points of the ring buffer to the points of the calls -/

open Classical in
/-- The send call a push operation belongs to. -/
noncomputable def owner (tr : Trace V W) (a : OpId) : Nat :=
  if h : ∃ k, .api (.attempt k a) ∈ tr then Classical.choose h else 0

theorem ExecM.owner (h : Exec c tr s) {k : Nat} {a : OpId} (ha : .api (.attempt k a) ∈ tr) : Chan.owner tr a = k := by
  have he : ∃ k, .api (.attempt k a) ∈ tr := ⟨k, ha⟩
  unfold Chan.owner
  rw [dif_pos he]
  exact h.attInv.uniq _ _ _ (Classical.choose_spec he) ha

/-- The pop operation `a` is the last one of a receive call, which returns `e`. -/
def Decides (tr : Trace V W) (a : OpId) (e : Api W) : Prop := ∃ p r q, tr = p ++ .core (.ret a r) :: .api e :: q

open Classical in
/-- What a point of the ring buffer means for the channel. -/
noncomputable def lab (tr : Trace V W) : Label V → List (CLabel V)
  | .push a => [.send (owner tr a)]
  | .full a => if .api (.retSend (owner tr a) .full) ∈ tr then [.full (owner tr a)] else []
  | .publish a v => [.sent (owner tr a) v]
  | .pop a v => [.recv a v]
  | .empty a =>
    if Decides tr a (.retPoll .none) then [.gaveUp]
    else if Decides tr a (.retPoll .pending) ∨ Decides tr a (.retTry .empty) then [.empty] else []
  | .popClosed a => if Decides tr a (.retPoll .none) ∨ Decides tr a (.retTry .closed) then [.closed] else []
  | .close _ _ => [.close]
  | _ => []

/-- The points of the channel; the point of a send call that returns `Closed` is its return. -/
noncomputable def point (tr : Trace V W) : Ev V W ⊕ Label V → CMarked V W
  | .inl (.api (.retSend k .closed)) => [.inr (.sendClosed k), .inl (.retSend k .closed)]
  | .inl (.api e) => [.inl e]
  | .inl _ => []
  | .inr l => (lab tr l).map .inr

theorem point_inl {x : Ev V W ⊕ Label V} {e : Api W} {p q : CMarked V W} (h : point tr x = p ++ .inl e :: q) :
    x = .inl (.api e) ∧ q = [] ∧ (p = [] ∨ ∃ k, e = .retSend k .closed ∧ p = [.inr (.sendClosed k)]) := by
  unfold point at h
  split at h
  · rename_i k
    rcases p with _ | ⟨y, _ | ⟨z, p⟩⟩
    · simp at h
    · simp at h
      obtain ⟨rfl, h2, h3⟩ := h
      exact ⟨by rw [← h2], h3, .inr ⟨k, h2.symm, rfl⟩⟩
    · simp at h
  · cases p with
    | nil => simp at h; exact ⟨by rw [h.1], h.2, .inl rfl⟩
    | cons y p => simp at h
  · simp at h
  · rename_i l
    have : Sum.inl e ∈ (lab tr l).map (Sum.inr : _ → Api W ⊕ CLabel V) := by rw [h]; simp
    simp at this

theorem lab_one {l : Label V} {x : CLabel V} {p q : List (CLabel V)} (h : lab tr l = p ++ x :: q) : p = [] ∧ q = [] ∧ lab tr l = [x] := by
  have hl : (lab tr l).length ≤ 1 := by
    cases l <;> simp only [lab]
    all_goals (repeat' split) <;> simp
  rw [h] at hl ⊢
  simp at hl
  have h1 : p = [] := List.eq_nil_of_length_eq_zero (by omega)
  have h2 : q = [] := List.eq_nil_of_length_eq_zero (by omega)
  subst h1 h2
  simp

theorem point_inr {x : Ev V W ⊕ Label V} {l : CLabel V} {p q : CMarked V W} (h : point tr x = p ++ .inr l :: q) :
    p = [] ∧ ((∃ k, l = .sendClosed k ∧ x = .inl (.api (.retSend k .closed)) ∧ q = [.inl (.retSend k .closed)]) ∨
      ∃ l0, x = .inr l0 ∧ lab tr l0 = [l] ∧ q = []) := by
  unfold point at h
  split at h
  · rename_i k
    rcases p with _ | ⟨y, _ | ⟨z, p⟩⟩
    · simp at h
      exact ⟨rfl, .inl ⟨k, h.1.symm, rfl, h.2.symm⟩⟩
    · simp at h
    · simp at h
  · cases p with
    | nil => simp at h
    | cons y p => simp at h
  · simp at h
  · rename_i l0
    obtain ⟨p1, p2, h1, h2, h3⟩ := List.map_eq_append_iff.1 h
    obtain ⟨y, p3, rfl, h4, h5⟩ := List.map_eq_cons_iff.1 h3
    cases h4
    obtain ⟨h6, h7, h8⟩ := lab_one h1
    subst h6 h7
    exact ⟨by simpa using h2.symm, .inr ⟨l0, rfl, h8, by simpa using h5.symm⟩⟩

theorem flatMap_split {α β : Type} {f : α → List β} {M : List α} {A B : List β} {x : β} (h : M.flatMap f = A ++ x :: B) :
    ∃ M₁ m M₂ p q, M = M₁ ++ m :: M₂ ∧ f m = p ++ x :: q ∧ A = M₁.flatMap f ++ p ∧ B = q ++ M₂.flatMap f := by
  induction M generalizing A with
  | nil => simp at h
  | cons m M ih =>
    rw [List.flatMap_cons] at h
    rcases append_split h with ⟨post, h1, h2⟩ | ⟨e1, h1, h2⟩
    · exact ⟨[], m, M, A, post, rfl, h2, by simp, h1⟩
    · obtain ⟨M₁, m', M₂, p, q, h3, h4, h5, h6⟩ := ih h1
      exact ⟨m :: M₁, m', M₂, p, q, by rw [h3]; rfl, h4, by rw [h2, h5]; simp, h6⟩

@[simp] theorem CMarked.events_append (A B : CMarked V W) : CMarked.events (A ++ B) = CMarked.events A ++ CMarked.events B :=
  List.filterMap_append ..
@[simp] theorem CMarked.labels_append (A B : CMarked V W) : CMarked.labels (A ++ B) = CMarked.labels A ++ CMarked.labels B :=
  List.filterMap_append ..

theorem mem_cevents {e : Api W} {L : CMarked V W} : e ∈ CMarked.events L ↔ .inl e ∈ L := by
  simp only [CMarked.events, List.mem_filterMap]
  constructor
  · rintro ⟨x, hx, h⟩; cases x <;> simp at h; subst h; exact hx
  · exact fun h => ⟨_, h, rfl⟩

theorem point_events (tr : Trace V W) (M : Mix V W) : CMarked.events (M.flatMap (point tr)) = apiOf (Mix.evs M) := by
  induction M with
  | nil => rfl
  | cons x M ih =>
    rw [List.flatMap_cons, CMarked.events_append, ih]
    rcases x with (e | e | e | e) | l
    · rfl
    · rfl
    · rfl
    · show _ = e :: apiOf (Mix.evs M)
      have : CMarked.events (point tr (.inl (.api e))) = [e] := by
        cases e <;> try rfl
        rename_i k r
        cases r <;> rfl
      rw [this]; rfl
    · show CMarked.events ((lab tr l).map .inr) ++ _ = apiOf (Mix.evs M)
      have : ∀ x : List (CLabel V), CMarked.events (x.map .inr : CMarked V W) = [] := by
        intro x; induction x with
        | nil => rfl
        | cons y x ih => exact ih
      rw [this]; rfl

/-! ### Where the points are -/

/-- A history of the channel with the points of a linearization of its ring buffer. -/
structure Mixed (c : Config W) (tr : Trace V W) (s : State w V W) (M : Mix V W) : Prop where
  run : Run c tr s
  lin : Linearizes c.cap (coreOf tr) (Mix.core M)
  evs : Mix.evs M = tr
  late : ∀ M₁ l M₂, M = M₁ ++ .inr l :: M₂ → CoreFirst (Mix.evs M₂)

theorem Run.mixed (h : Run c tr s) : ∃ M, Mixed c tr s M := by
  obtain ⟨L, hL⟩ := h.core.linearizes
  obtain ⟨M, h1, h2, h3⟩ := mix_exists tr L hL.history
  exact ⟨M, h, h2 ▸ hL, h1, h3⟩

variable {M M₁ M₂ : Mix V W}

/-- The operation of the ring buffer is in progress at its point. -/
theorem Mixed.point (h : Mixed c tr s M) {l : Label V} {a : OpId} {op : Op} (hM : M = M₁ ++ .inr l :: M₂)
    (hl : l.call = some (a, op)) (ho : op ≠ .len) : ∃ (tr0 : Trace V W) (s0 : State w V W) (m : List (Event V)), Run c tr0 s0 ∧
      Mix.evs M₁ = tr0 ++ m.map .core ∧ (∀ b o, .invoke b o ∉ m) ∧ coreKind (s0.core.pc a) = opKind op ∧
      .invoke a op ∈ coreOf tr0 ∧ ¬ Thingbuf.Returned (coreOf (Mix.evs M₁)) a := by
  have he : tr = Mix.evs M₁ ++ Mix.evs M₂ := by rw [← h.evs, hM]; simp
  obtain ⟨tr0, s0, m, h1, h2, h3⟩ := h.run.exec.cut he (h.late _ _ _ hM)
  obtain ⟨d1, d2⟩ := h.lin.during (Mix.core M₁) l (Mix.core M₂) a op (by rw [hM]; simp) hl
  rw [mixCore_events] at d1 d2
  have hi : .invoke a op ∈ coreOf tr0 := by
    rw [h2] at d1
    simp only [coreOf_append, coreOf_core] at d1
    exact (List.mem_append.1 d1).resolve_right (h3 a op)
  have hr : ¬ Thingbuf.Returned (coreOf tr0) a := fun ⟨r, hr⟩ => d2 ⟨r, by rw [h2, coreOf_append]; exact List.mem_append_left _ hr⟩
  have hrun : Run c tr0 s0 := Run.before (l := m.map .core ++ Mix.evs M₂) (by rw [← List.append_assoc, ← h2, ← he]; exact h.run) h1
  exact ⟨tr0, s0, m, hrun, h2, h3, hrun.running hi hr ho, hi, d2⟩

theorem ExecM.push_owner (h : Exec c tr s) {a : OpId} (ha : coreKind (s.core.pc a) = some .push) :
    ∃ k att, s.snd k = .push a att ∧ .api (.attempt k a) ∈ tr := by
  obtain ⟨x, hx⟩ := h.coreOwns.cov a .push ha
  cases x <;> simp only [coreClaim, claimOf] at hx
  case snd k =>
    cases hp : s.snd k <;> rw [hp] at hx <;> simp [sndCore] at hx
    subst hx
    have := h.attInv.att k
    rw [hp] at this
    exact ⟨k, _, hp, this.1⟩
  case rx => cases hp : s.rx <;> rw [hp] at hx <;> simp [rxCore] at hx
  case closer => cases hp : s.closer <;> rw [hp] at hx <;> simp [closerCore] at hx
  case ref b => cases hp : s.ref b <;> rw [hp] at hx <;> simp [refCore] at hx

theorem ExecM.pop_owner (h : Exec c tr s) {a : OpId} (ha : coreKind (s.core.pc a) = some .pop) : rxCore s.rx = some (a, .pop) := by
  obtain ⟨x, hx⟩ := h.coreOwns.cov a .pop ha
  cases x <;> simp only [coreClaim, claimOf] at hx
  case snd k => cases hp : s.snd k <;> rw [hp] at hx <;> simp [sndCore] at hx
  case rx => exact hx
  case closer => cases hp : s.closer <;> rw [hp] at hx <;> simp [closerCore] at hx
  case ref b => cases hp : s.ref b <;> rw [hp] at hx <;> simp [refCore] at hx

theorem ExecM.close_owner (h : Exec c tr s) {a : OpId} (ha : coreKind (s.core.pc a) = some .close) : s.rx = .closing a ∨ s.closer = .closing a := by
  obtain ⟨x, hx⟩ := h.coreOwns.cov a .close ha
  cases x <;> simp only [coreClaim, claimOf] at hx
  case snd k => cases hp : s.snd k <;> rw [hp] at hx <;> simp [sndCore] at hx
  case rx => cases hp : s.rx <;> rw [hp] at hx <;> simp [rxCore] at hx; exact .inl (by rw [hx])
  case closer => cases hp : s.closer <;> rw [hp] at hx <;> simp [closerCore] at hx; exact .inr (by rw [hx])
  case ref b => cases hp : s.ref b <;> rw [hp] at hx <;> simp [refCore] at hx

end Thingbuf.Chan
