import Verif.CellEvents

/-!
# Properties of the wait cell (C19 - C23)

`Exec c tr s` ranges over all executions of a cell: any number of calls of `wait_with`, `notify` and
`close_tx`, in any interleaving, with waker factories that may panic.
-/

namespace Thingbuf.Cell

variable {W : Type} {c : Config} {tr : Trace W} {s : State W}

/-- Run a list of actions (for concrete cases). -/
def runActs (c : Config) : State W → List (Act W) → Option (State W × Trace W)
  | s, [] => some (s, [])
  | s, act :: acts => match step c s act with
    | none => none
    | some (s1, e1) => match runActs c s1 acts with
      | none => none
      | some (s2, e2) => some (s2, e1 ++ e2)

theorem Exec.of_runActs {evs : Trace W} {s' : State W} {acts : List (Act W)}
    (he : Exec c tr s) (h : runActs c s acts = some (s', evs)) : Exec c (tr ++ evs) s' := by
  induction acts generalizing tr s evs with
  | nil => simp only [runActs, Option.some.injEq, Prod.mk.injEq] at h; obtain ⟨rfl, rfl⟩ := h; simpa using he
  | cons act acts ih =>
    simp only [runActs] at h
    split at h
    · cases h
    · rename_i s1 e1 h1
      split at h
      · cases h
      · rename_i s2 e2 h2
        simp only [Option.some.injEq, Prod.mk.injEq] at h
        obtain ⟨rfl, rfl⟩ := h
        rw [← List.append_assoc]
        exact ih (he.step h1) h2

theorem exec_of_acts {c : Config} {W : Type} (acts : List (Act W)) (evs : Trace W)
    (h : (runActs c (State.init W) acts).map Prod.snd = some evs) : ∃ s, Exec c evs s := by
  obtain ⟨⟨s, t⟩, h1, rfl⟩ := Option.map_eq_some_iff.1 h
  exact ⟨s, by simpa using Exec.init.of_runActs h1⟩

/-- The library as normally built (`std`, release). -/
def release : Config := { std := true, debug := false }
def debugBuild : Config := { std := true, debug := true }
def noStd : Config := { std := false, debug := false }

/-- A concrete execution with races: the receiver (0) registers waker 10; two senders (1, 2) notify
concurrently; sender 2's notification is absorbed while 1 is about to take the waker; the receiver polls again
(3, waker 11) and finds the cell being notified; it polls again (4, waker 12) and registers; a closing
notification (5) wakes it; a further poll (6) is told that the channel is closed. -/
def demoActs : List (Act Nat) :=
  [.callWait 0, .run 0, .mk 0 10, .run 0, .run 0, .run 0,
   .callNotify 1 false, .callNotify 2 false, .run 1, .run 2, .callWait 3, .run 3, .mk 3 11, .run 1, .run 1, .run 1, .run 1,
   .callWait 4, .run 4, .mk 4 12, .run 4, .run 4, .run 4,
   .callNotify 5 true, .run 5, .run 5, .run 5, .run 5, .run 5, .callWait 6, .run 6]

def demoTrace : Trace Nat :=
  [.callWait 0, .mk 0 10, .accBegin 0, .accEnd 0, .register 0 10, .retWait 0 .wait,
   .callNotify 1 false, .callNotify 2 false, .signal 1 false, .signal 2 false, .retNotify 2 false,
   .callWait 3, .mk 3 11, .wake 3 11, .retWait 3 .notified, .accBegin 1, .accEnd 1, .wake 1 10, .retNotify 1 true,
   .callWait 4, .mk 4 12, .accBegin 4, .accEnd 4, .register 4 12, .retWait 4 .wait,
   .callNotify 5 true, .signal 5 true, .accBegin 5, .accEnd 5, .wake 5 12, .retNotify 5 true,
   .callWait 6, .retWait 6 .closed]

theorem demo (c : Config) : ∃ s, Exec c demoTrace s := by
  refine exec_of_acts demoActs demoTrace ?_
  rcases c with ⟨_ | _, _ | _⟩ <;> decide +kernel

/-! ### C19 -/

/-- **C19** Accesses to the stored waker never overlap: at every instant at most one has begun and not
ended, whatever the number of receivers and senders. -/
theorem C19_exclusive (hstd : c.std = true) (h : Exec c tr s) {pre : Trace W} (hp : pre <+: tr) :
    accEnded pre ≤ accBegun pre ∧ accBegun pre ≤ accEnded pre + 1 := by
  induction h with
  | init => rw [List.prefix_nil.1 hp]; simp [accBegun, accEnded]
  | @step tr s s' act evs h hs ih =>
    by_cases hle : pre <+: tr
    · exact ih hle
    · have hfull := (h.step hs).accInv hstd
      have hpart := h.accInv hstd
      obtain ⟨a, p, l, w, rfl, ht⟩ := step_tr hs
      obtain ⟨t, hpt⟩ := hp
      rcases List.append_eq_append_iff.1 hpt with ⟨m, h1, h2⟩ | ⟨m, h1, h2⟩
      · exact absurd ⟨m, h1.symm⟩ hle
      · subst h1
        have hm : accBegun m = 0 ∧ accEnded m = 0 ∨ m = evs ∨ m = [] := by
          have hz : accBegun evs = 0 ∧ accEnded evs = 0 ∨ evs.length = 1 := by
            cases ht <;> simp [accBegun, accEnded]
          rcases hz with ⟨z1, z2⟩ | z
          · left
            rw [h2] at z1 z2
            simp only [accBegun, accEnded, List.countP_append] at *
            omega
          · right
            have hlen := congrArg List.length h2
            simp only [z, List.length_append] at hlen
            cases m with
            | nil => exact .inr rfl
            | cons y m =>
              left
              simp only [List.length_cons] at hlen
              have : t = [] := List.eq_nil_of_length_eq_zero (by omega)
              rw [h2, this]; simp
        have tot : ∀ t' s', AccInv (W := W) t' s' → accEnded t' ≤ accBegun t' ∧ accBegun t' ≤ accEnded t' + 1 := by
          rintro t' s' (⟨_, h⟩ | ⟨_, h⟩) <;> omega
        rcases hm with ⟨m1, m2⟩ | rfl | rfl
        · have := tot _ _ hpart
          simp only [accBegun, accEnded, List.countP_append] at *
          omega
        · exact tot _ _ hfull
        · simpa using tot _ _ hpart

example : accBegun demoTrace = 4 ∧ accBegun (demoTrace.take 3) = accEnded (demoTrace.take 3) + 1 := by decide

/-! ### C20, C21: no lost wakeup -/

theorem oneRx_register (hstd : c.std = true) (h : Exec c tr s) (hone : OneRx tr) {pre post : Trace W} {a : OpId}
    (htr : tr = pre ++ .retWait a .wait :: post) : ∃ pre' v, pre = pre' ++ [.register a v] := by
  have hok := h.evOk hstd
  have h1 := hok _ _ _ htr
  rcases h1.2.2.1 rfl with h2 | ⟨b, hb, hcb, hrb⟩
  · exact h2
  · exfalso
    obtain ⟨l1, l2, hpre⟩ := List.append_of_mem h1.1
    have mono : ∀ {l l' : Trace W} {d : OpId}, Returned l d → Returned (l ++ l') d := by
      rintro l l' d (⟨r, hr⟩ | ⟨r, hr⟩ | hr)
      · exact .inl ⟨r, by simp [hr]⟩
      · exact .inr (.inl ⟨r, by simp [hr]⟩)
      · exact .inr (.inr (by simp [hr]))
    have hcb' := hcb
    rw [hpre] at hcb'
    rcases List.mem_append.1 hcb' with hm | hm
    · exact hrb (hpre ▸ mono (hone l1 a (l2 ++ .retWait a .wait :: post) (by rw [htr, hpre]; simp) b hm))
    · rcases List.mem_cons.1 hm with hm | hm
      · cases hm; exact hb rfl
      · obtain ⟨m1, m2, rfl⟩ := List.append_of_mem hm
        refine h1.2.1 ?_
        have := hone (l1 ++ .callWait a :: m1) b (m2 ++ .retWait a .wait :: post) (by rw [htr, hpre]; simp) a (by simp)
        rw [hpre, show l1 ++ Event.callWait a :: (m1 ++ .callWait b :: m2) =
          (l1 ++ .callWait a :: m1) ++ .callWait b :: m2 by simp]
        exact mono this

/-- **C20** If the only receiver is told to wait, then the waker of that call has been obtained and registered. -/
theorem C20_wait_is_registered (hstd : c.std = true) (h : Exec c tr s) (hone : OneRx tr) {pre post : Trace W} {a : OpId}
    (htr : tr = pre ++ .retWait a .wait :: post) :
    ∃ v, .mk a v ∈ pre ∧ .register a v ∈ pre ∧ ∀ u, .mk a u ∈ pre → u = v := by
  have hok := h.evOk hstd
  obtain ⟨pre', v, rfl⟩ := oneRx_register hstd h hone htr
  obtain ⟨h1, _, h2⟩ := hok pre' (.register a v) (.retWait a .wait :: post) (by rw [htr]; simp)
  exact ⟨v, by simp [h1], by simp, fun u hu => h2 u (by simpa using hu)⟩

theorem registered_is_woken (hstd : c.std = true) (h : Exec c tr s) (hone : OneRx tr)
    (hass : ∀ d, .assertFailed d ∉ tr) {pre post : Trace W} {a b : OpId} {v : W} {x y : Bool}
    (htr : tr = pre ++ .retWait a .wait :: post) (hv : .mk a v ∈ pre)
    (hcall : .callNotify b x ∈ post) (hret : .retNotify b y ∈ post) :
    (∃ d, .wake d v ∈ post) ∨ (∃ a', .retWait a' .wait ∈ post) ∨
    ∃ d l1 l2, Called tr d ∧ ¬ Returned tr d ∧ post = l1 ++ .retNotify b y :: l2 ∧
      Called (pre ++ .retWait a .wait :: l1) d := by
  have hok := h.evOk hstd
  obtain ⟨pre', v', rfl⟩ := oneRx_register hstd h hone htr
  have htr' : tr = pre' ++ .register a v' :: (.retWait a .wait :: post) := by rw [htr]; simp
  have hreg := hok _ _ _ htr'
  have hvv : v = v' := hreg.2.2 v (by simpa using hv)
  subst hvv
  by_cases hw : ∃ d, .wake d v ∈ post
  · exact .inl hw
  by_cases hr : ∃ a', .retWait a' .wait ∈ post
  · exact .inr (.inl hr)
  right; right
  -- no later registration
  have hnoreg : ∀ a' u, .register a' u ∉ Event.retWait a .wait :: post := by
    intro a' u hm
    rcases List.mem_cons.1 hm with hm | hm
    · cases hm
    · -- a registration is followed by the return
      exfalso
      have key : ∀ (t : Trace W) (s : State W), Exec c t s → ∀ (p : Trace W) (e : Event W) (q : Trace W),
          t = p ++ e :: q → (∃ a' u, e = .register a' u) → ∃ a', .retWait a' .wait ∈ q := by
        intro t s ht
        induction ht with
        | init => intro p e q hp; simp at hp
        | step _ hs ih =>
          intro p e q hp he
          obtain ⟨d, pc, l, w, rfl, htr⟩ := step_tr hs
          rcases append_split hp with ⟨q', rfl, h2⟩ | ⟨e1, h2, h3⟩
          · obtain ⟨a', ha'⟩ := ih _ _ _ h2 he
            exact ⟨a', by simp [ha']⟩
          · obtain ⟨a', u, rfl⟩ := he
            cases htr <;> simp [List.cons_eq_append_iff] at h2
            obtain ⟨_, _, rfl⟩ := h2
            exact ⟨_, List.mem_singleton.2 rfl⟩
      obtain ⟨m1, m2, rfl⟩ := List.append_of_mem hm
      obtain ⟨a'', ha''⟩ := key _ _ h (pre' ++ .register a v :: .retWait a .wait :: m1) _ m2
        (by rw [htr']; simp) ⟨a', u, rfl⟩
      exact hr ⟨a'', by simp [ha'']⟩
  -- the signal of `b` lies after the registration
  obtain ⟨l1, l2, hl⟩ := List.append_of_mem hret
  have hretok := hok (pre' ++ .register a v :: .retWait a .wait :: l1) (.retNotify b y) l2 (by rw [htr', hl]; simp)
  obtain ⟨⟨x', hsig⟩, _⟩ := hretok
  have hnotpre : .signal b x' ∉ pre' := by
    intro hm
    obtain ⟨m1, m2, rfl⟩ := List.append_of_mem hm
    have := (hok m1 (.signal b x') (m2 ++ .register a v :: .retWait a .wait :: post) (by rw [htr']; simp)).1
    obtain ⟨n1, n2, hn⟩ := List.append_of_mem hcall
    have h2 := hok (m1 ++ .signal b x' :: m2 ++ .register a v :: .retWait a .wait :: n1) (.callNotify b x) n2
      (by rw [htr', hn]; simp)
    exact h2 (.inr ⟨x', by simp [this]⟩)
  have hsigl1 : .signal b x' ∈ l1 := by
    rcases List.mem_append.1 hsig with hm | hm
    · exact absurd hm hnotpre
    · simpa using hm
  obtain ⟨m1, m2, rfl⟩ := List.append_of_mem hsigl1
  rcases h.regInv hstd pre' a v _ htr' hnoreg (fun d hm => hw ⟨d, by simpa using hm⟩)
    (fun d hm => hass d (by rw [htr']; simp at hm ⊢; simp [hm])) with ⟨hs, _⟩ | ⟨d, hresp, hc⟩
  · exact absurd (by rw [hl]; simp) (hs b x')
  · refine ⟨d, m1 ++ .signal b x' :: m2, l2, ?_, ?_, hl, ?_⟩
    · exact Classical.byContradiction fun hn => hresp.not_idle.1 ((h.idle_iff d).2 hn)
    · exact fun hn => hresp.not_idle.2 ((h.done_iff d).2 hn)
    · have := hc (.retWait a .wait :: m1) b x' (m2 ++ .retNotify b y :: l2) (by rw [hl]; simp)
      have := this.append (evs := .signal b x' :: m2)
      simpa using this

/-- **C20**, **C21** No lost wakeup.  Suppose there is one receiver; its call `a` of `wait_with` was told to wait;
later a notification or close `b` was called and has returned; and no `debug_assert!`
failed (see `C23_assertion_fails`).  Then call `a` has obtained its waker `v` and `v` has been woken since `a` returned; or the receiver has registered
again since; or an operation `d`, which was already under way when `b` returned, is still in progress (and it is
going to wake `v`: see `C20_quiescent`). -/
theorem C20_registered_is_woken (hstd : c.std = true) (h : Exec c tr s) (hone : OneRx tr)
    (hass : ∀ d, .assertFailed d ∉ tr) {pre post : Trace W} {a b : OpId} {x y : Bool}
    (htr : tr = pre ++ .retWait a .wait :: post)
    (hcall : .callNotify b x ∈ post) (hret : .retNotify b y ∈ post) :
    ∃ v, .mk a v ∈ pre ∧ ((∃ d, .wake d v ∈ post) ∨ (∃ a', .retWait a' .wait ∈ post) ∨
    ∃ d l1 l2, Called tr d ∧ ¬ Returned tr d ∧ post = l1 ++ .retNotify b y :: l2 ∧
      Called (pre ++ .retWait a .wait :: l1) d) := by
  obtain ⟨v, hv, _, _⟩ := C20_wait_is_registered hstd h hone htr
  exact ⟨v, hv, registered_is_woken hstd h hone hass htr hv hcall hret⟩

theorem not_returned_of_call (hok : AllOk EvOk tr) {pre post : Trace W} {b : OpId} {x : Bool}
    (htr : tr = pre ++ .callNotify b x :: post) (hn : .assertFailed b ∉ pre) :
    ¬ Returned pre b := by
  have hc := hok _ _ _ htr
  have hok' : AllOk EvOk pre := hok.prefix ⟨_, htr.symm⟩
  rintro (⟨r, hr⟩ | ⟨y, hr⟩ | hr)
  · obtain ⟨m1, m2, rfl⟩ := List.append_of_mem hr
    exact hc (.inl (by simp [(hok' m1 (.retWait b r) m2 rfl).1]))
  · obtain ⟨m1, m2, rfl⟩ := List.append_of_mem hr
    obtain ⟨⟨x', hs⟩, _⟩ := hok' m1 (.retNotify b y) m2 rfl
    obtain ⟨k1, k2, rfl⟩ := List.append_of_mem hs
    exact hc (.inr ⟨x', by simp [(hok' k1 (.signal b x') (k2 ++ .retNotify b y :: m2) (by simp)).1]⟩)
  · exact hn hr

theorem quiescent_woken (hstd : c.std = true) (h : Exec c tr s) (hone : OneRx tr)
    (hass : ∀ d, .assertFailed d ∉ tr) (hq : Quiescent tr) {pre post : Trace W} {a b : OpId} {v : W} {x : Bool}
    (htr : tr = pre ++ .retWait a .wait :: post) (hv : .mk a v ∈ pre)
    (hlast : ∀ a', .retWait a' .wait ∉ post) (hcall : .callNotify b x ∈ post) :
    ∃ d, .wake d v ∈ post := by
  have hok := h.evOk hstd
  -- the return of `b` comes after its call
  obtain ⟨n1, n2, hn⟩ := List.append_of_mem hcall
  have htr2 : tr = (pre ++ .retWait a .wait :: n1) ++ .callNotify b x :: n2 := by rw [htr, hn]; simp
  have hret := hq b (.inr ⟨x, by rw [htr2]; simp⟩)
  have hnot := not_returned_of_call hok htr2 (fun hm => hass b (by rw [htr2]; exact List.mem_append_left _ hm))
  have hret2 : Returned (Event.callNotify b x :: n2) b := by
    rw [htr2] at hret
    rcases hret with ⟨r, hr⟩ | ⟨y, hr⟩ | hr
    · exact .inl ⟨r, (List.mem_append.1 hr).resolve_left fun hm => hnot (.inl ⟨r, hm⟩)⟩
    · exact .inr (.inl ⟨y, (List.mem_append.1 hr).resolve_left fun hm => hnot (.inr (.inl ⟨y, hm⟩))⟩)
    · exact absurd (by rw [htr2]; exact hr) (hass b)
  have hret3 : ∃ y, .retNotify b y ∈ post := by
    rcases hret2 with ⟨r, hr⟩ | ⟨y, hr⟩ | hr
    · exfalso
      have hm : Event.retWait b r ∈ tr := by rw [htr2]; exact List.mem_append_right _ hr
      obtain ⟨m1, m2, hm⟩ := List.append_of_mem hm
      have hcw : .callWait b ∈ tr := by rw [hm]; simp [(hok m1 (.retWait b r) m2 hm).1]
      have hop := h.opOk b
      rw [(h.done_iff b).2 hret] at hop
      simp only [OpOk] at hop
      rcases hop.1 with ⟨_, h2⟩ | ⟨h1, _⟩
      · exact h2 x (mem_mine.2 ⟨by rw [htr2]; simp, rfl⟩)
      · exact h1 (mem_mine.2 ⟨hcw, rfl⟩)
    · refine ⟨y, ?_⟩
      rw [hn]
      exact List.mem_append_right _ hr
    · exact absurd (by rw [htr2]; exact List.mem_append_right _ hr) (hass b)
  obtain ⟨y, hy⟩ := hret3
  rcases registered_is_woken hstd h hone hass htr hv hcall hy with h1 | ⟨a', h1⟩ | ⟨d, _, _, h1, h2, _⟩
  · exact h1
  · exact absurd h1 (hlast a')
  · exact absurd (hq d h1) h2


/-- **C20**, **C21** in a state in which no operation is in progress: the registered waker has been woken
if any notification or close was called after it was registered. -/
theorem C20_quiescent (hstd : c.std = true) (h : Exec c tr s) (hone : OneRx tr)
    (hass : ∀ d, .assertFailed d ∉ tr) (hq : Quiescent tr) {pre post : Trace W} {a b : OpId} {x : Bool}
    (htr : tr = pre ++ .retWait a .wait :: post)
    (hlast : ∀ a', .retWait a' .wait ∉ post) (hcall : .callNotify b x ∈ post) :
    ∃ v, .mk a v ∈ pre ∧ ∃ d, .wake d v ∈ post := by
  obtain ⟨v, hv, _, _⟩ := C20_wait_is_registered hstd h hone htr
  exact ⟨v, hv, quiescent_woken hstd h hone hass hq htr hv hlast hcall⟩

/-- Decision procedures for `Quiescent` and `OneRx`, for the examples. -/
def returnedB (tr : Trace W) (a : OpId) : Bool :=
  tr.any fun | .retWait b _ | .retNotify b _ | .assertFailed b => a == b | _ => false

def quiescentB (tr : Trace W) : Bool :=
  tr.all fun | .callWait a | .callNotify a _ => returnedB tr a | _ => true

def oneRxB (pre : Trace W) : Trace W → Bool
  | [] => true
  | e :: es =>
    (match e with
      | .callWait _ => pre.all fun | .callWait b => returnedB pre b | _ => true
      | _ => true) && oneRxB (pre ++ [e]) es

theorem returned_of_B {a : OpId} (h : returnedB tr a = true) : Returned tr a := by
  simp only [returnedB, List.any_eq_true] at h
  obtain ⟨e, he, h⟩ := h
  cases e <;> simp at h
  · exact .inl ⟨_, h ▸ he⟩
  · exact .inr (.inl ⟨_, h ▸ he⟩)
  · exact .inr (.inr (h ▸ he))

theorem quiescent_of_B (h : quiescentB tr = true) : Quiescent tr := by
  simp only [quiescentB, List.all_eq_true] at h
  rintro a (hc | ⟨x, hc⟩)
  · exact returned_of_B (h _ hc)
  · exact returned_of_B (h _ hc)

theorem oneRx_of_B (h : oneRxB [] tr = true) : OneRx tr := by
  have key : ∀ (l p : Trace W), oneRxB p l = true → ∀ pre a post, l = pre ++ .callWait a :: post →
      ∀ b, .callWait b ∈ p ++ pre → Returned (p ++ pre) b := by
    intro l
    induction l with
    | nil => intro p _ pre a post h; simp at h
    | cons e es ih =>
      intro p h pre a post hl b hb
      simp only [oneRxB, Bool.and_eq_true] at h
      cases pre with
      | nil =>
        simp only [List.nil_append, List.cons.injEq] at hl
        obtain ⟨rfl, _⟩ := hl
        simp only [List.all_eq_true, List.append_nil] at h hb ⊢
        exact returned_of_B (h.1 _ hb)
      | cons e' pre =>
        simp only [List.cons_append, List.cons.injEq] at hl
        obtain ⟨rfl, rfl⟩ := hl
        have := ih (p ++ [e]) h.2 pre a post rfl b (by simpa using hb)
        simpa using this
  intro pre a post htr b hb
  simpa using key tr [] h pre a post htr b (by simpa using hb)

/-- The hypotheses of `C20_registered_is_woken` and `C20_quiescent` are met: receiver call 0 registered waker 10
and senders 1 and 2 notified concurrently. -/
example : ∃ s, Exec release (demoTrace.take 19) s ∧ OneRx (demoTrace.take 19) ∧ Quiescent (demoTrace.take 19) ∧
    .mk 0 10 ∈ demoTrace.take 5 ∧
    demoTrace.take 19 = demoTrace.take 5 ++ .retWait 0 .wait :: (demoTrace.take 19).drop 6 ∧
    .callNotify 2 false ∈ (demoTrace.take 19).drop 6 ∧ .retNotify 2 false ∈ (demoTrace.take 19).drop 6 ∧
    ∀ d, .assertFailed d ∉ demoTrace.take 19 := by
  obtain ⟨s, hs⟩ := exec_of_acts (c := release) (demoActs.take 17) (demoTrace.take 19) (by decide +kernel)
  exact ⟨s, hs, oneRx_of_B (by decide), quiescent_of_B (by decide), by decide, by decide, by decide, by decide,
    by simp [demoTrace]⟩

/-- With two receivers on one cell a wakeup can be lost: call 1 is told to wait although its waker was never
registered, and after a notification all operations have returned and waker 11 was not woken.  (The API rules
this out by `&mut`/`&Receiver`: see DESIGN.md.) -/
theorem C20_two_receivers_lose_wakeup : ∃ (tr : Trace Nat) (s : State Nat) (pre post : Trace Nat),
    Exec release tr s ∧ Quiescent tr ∧ tr = pre ++ .retWait 1 .wait :: post ∧ .callNotify 2 false ∈ post ∧
    ∀ d, .wake d 11 ∉ tr := by
  have h := exec_of_acts (c := release)
    [.callWait 0, .run 0, .callWait 1, .run 1, .mk 0 10, .run 0, .run 0, .run 0,
     .callNotify 2 false, .run 2, .run 2, .run 2, .run 2, .run 2]
    [.callWait 0, .callWait 1, .retWait 1 .wait, .mk 0 10, .accBegin 0, .accEnd 0, .register 0 10, .retWait 0 .wait,
      .callNotify 2 false, .signal 2 false, .accBegin 2, .accEnd 2, .wake 2 10, .retNotify 2 true] (by decide +kernel)
  obtain ⟨s, hs⟩ := h
  exact ⟨_, s, [.callWait 0, .callWait 1], _, hs, quiescent_of_B (by decide), rfl, by decide, by simp⟩

/-! ### C21 -/

/-- **C21** Once a close has returned, every later attempt to wait that returns is told that the channel is
closed (whatever other operations are in progress). -/
theorem C21_closed_sticks (hstd : c.std = true) (h : Exec c tr s) {a b : OpId} {y : Bool} {r : Res}
    (hb : .callNotify b true ∈ tr) (hord : Before tr (.retNotify b y) (.callWait a)) (hr : .retWait a r ∈ tr) :
    r = .closed := by
  have hok := h.evOk hstd
  obtain ⟨l1, l2, l3, htr⟩ := hord
  obtain ⟨⟨x, hs⟩, _⟩ := hok l1 (.retNotify b y) _ htr
  obtain ⟨k1, k2, rfl⟩ := List.append_of_mem hs
  have hx : x = true := by
    have hop := h.opOk b
    have hret : Returned tr b := .inr (.inl ⟨y, by rw [htr]; simp⟩)
    rw [(h.done_iff b).2 hret] at hop
    simp only [OpOk] at hop
    have hcx := (hok k1 (.signal b x) (k2 ++ .retNotify b y :: (l2 ++ .callWait a :: l3)) (by rw [htr]; simp)).1
    rcases hop.1 with ⟨_, h2⟩ | ⟨_, c', _, _, h3⟩
    · exact absurd (mem_mine.2 ⟨hb, rfl⟩) (h2 true)
    · rw [h3 true (mem_mine.2 ⟨hb, rfl⟩), h3 x (mem_mine.2 ⟨by rw [htr]; simp [hcx], rfl⟩)]
  subst hx
  obtain ⟨m1, m2, hm⟩ := List.append_of_mem hr
  have hrok := hok m1 (.retWait a r) m2 hm
  refine hrok.2.2.2.2 b ?_
  -- the call of `a` lies before its return
  have hcall := hok ((k1 ++ .signal b true :: k2) ++ .retNotify b y :: l2) (.callWait a) l3 (by rw [htr]; simp)
  have hmem := hrok.1
  rw [hm] at htr
  have h2 : m1 ++ Event.retWait a r :: m2 =
      (k1 ++ .signal b true :: k2 ++ .retNotify b y :: l2) ++ .callWait a :: l3 := by rw [htr]; simp
  rcases append_split h2 with ⟨p, _, h4⟩ | ⟨e1, h3, h4⟩
  · exact ⟨k1, k2 ++ .retNotify b y :: l2, p, by rw [h4]; simp⟩
  · exact absurd (.inl (by rw [h4]; simp [hmem])) hcall

/-- **C21** ... and it is told so only if a close has been called. -/
theorem C21_closed_truthful (hstd : c.std = true) (h : Exec c tr s) {a : OpId} {pre post : Trace W}
    (htr : tr = pre ++ .retWait a .closed :: post) : ∃ b, .callNotify b true ∈ pre := by
  have hok := h.evOk hstd
  obtain ⟨b, hb⟩ := (hok _ _ _ htr).2.2.2.1 rfl
  obtain ⟨k1, k2, rfl⟩ := List.append_of_mem hb
  exact ⟨b, by simp [(hok k1 (.signal b true) (k2 ++ .retWait a .closed :: post) (by rw [htr]; simp)).1]⟩

/-- **C21** A close wakes a registered receiver: the case `x = true` of `C20_quiescent`. -/
theorem C21_close_wakes (hstd : c.std = true) (h : Exec c tr s) (hone : OneRx tr)
    (hass : ∀ d, .assertFailed d ∉ tr) (hq : Quiescent tr) {pre post : Trace W} {a b : OpId}
    (htr : tr = pre ++ .retWait a .wait :: post)
    (hlast : ∀ a', .retWait a' .wait ∉ post) (hcall : .callNotify b true ∈ post) :
    ∃ v, .mk a v ∈ pre ∧ ∃ d, .wake d v ∈ post :=
  C20_quiescent hstd h hone hass hq htr hlast hcall

example : .callNotify 5 true ∈ demoTrace ∧ Before demoTrace (.retNotify 5 true) (.callWait 6) ∧
    .retWait 6 .closed ∈ demoTrace ∧ OneRx demoTrace ∧ Quiescent demoTrace ∧
    demoTrace = demoTrace.take 24 ++ .retWait 4 .wait :: demoTrace.drop 25 ∧ .mk 4 12 ∈ demoTrace.take 24 ∧
    .callNotify 5 true ∈ demoTrace.drop 25 :=
  ⟨by decide, ⟨demoTrace.take 30, [], [.retWait 6 .closed], by decide⟩, by decide, oneRx_of_B (by decide),
    quiescent_of_B (by decide), by decide, by decide, by decide⟩

/-! ### C22 -/

/-- **C22** The waker woken by a notification is the most recent one.  If call `a`, whose waker is `v`, was told to
wait, and notification `d` is called later and wakes `u`, then `u` is `v` or was registered after `v`. -/
theorem C22_latest_waker (hstd : c.std = true) (h : Exec c tr s) (hone : OneRx tr) {pre mid post : Trace W}
    {a d : OpId} {v u : W} {x : Bool} (htr : tr = pre ++ .retWait a .wait :: (mid ++ .callNotify d x :: post))
    (hv : .mk a v ∈ pre) (hw : .wake d u ∈ post) :
    u = v ∨ ∃ a', .mk a' u ∈ tr ∧ .register a' u ∈ mid ++ post := by
  have hok := h.evOk hstd
  obtain ⟨pre', v', rfl⟩ := oneRx_register hstd h hone htr
  have hvv : v = v' := (hok pre' (.register a v') (.retWait a .wait :: (mid ++ .callNotify d x :: post))
    (by rw [htr]; simp)).2.2 v (by simpa using hv)
  subst hvv
  obtain ⟨p1, p2, rfl⟩ := List.append_of_mem hw
  have := hok (pre' ++ .register a v :: .retWait a .wait :: (mid ++ .callNotify d x :: p1)) (.wake d u) p2
    (by rw [htr]; simp) ⟨x, by simp⟩ pre' a v _ rfl ⟨x, by simp⟩
  rcases this with h1 | ⟨a', h1⟩
  · exact .inl h1
  · right
    refine ⟨a', ?_, ?_⟩
    · have hm : Event.register a' u ∈ tr := by
        rw [htr]
        simp only [List.mem_cons, List.mem_append, reduceCtorEq, false_or] at h1 ⊢
        rcases h1 with h1 | h1 <;> simp [h1]
      obtain ⟨q1, q2, hq⟩ := List.append_of_mem hm
      rw [hq]
      simp [(hok q1 (.register a' u) q2 hq).1]
    · simp only [List.mem_cons, List.mem_append, reduceCtorEq, false_or] at h1 ⊢
      rcases h1 with h1 | h1 <;> simp [h1]

/-- With no later registration it is exactly the most recent one. -/
theorem C22_exactly (hstd : c.std = true) (h : Exec c tr s) (hone : OneRx tr) {pre mid post : Trace W}
    {a d : OpId} {v u : W} {x : Bool} (htr : tr = pre ++ .retWait a .wait :: (mid ++ .callNotify d x :: post))
    (hv : .mk a v ∈ pre) (hno : ∀ a' u', .register a' u' ∉ mid ++ post) (hw : .wake d u ∈ post) : u = v := by
  rcases C22_latest_waker hstd h hone htr hv hw with h1 | ⟨a', _, h1⟩
  · exact h1
  · exact absurd h1 (hno a' u)

/-- The receiver polls twice with different wakers before a notification: the second waker is woken. -/
example : ∃ s, Exec release (W := Nat)
    [.callWait 0, .mk 0 10, .accBegin 0, .accEnd 0, .register 0 10, .retWait 0 .wait,
     .callWait 1, .mk 1 11, .accBegin 1, .accEnd 1, .register 1 11, .retWait 1 .wait,
     .callNotify 2 false, .signal 2 false, .accBegin 2, .accEnd 2, .wake 2 11, .retNotify 2 true] s :=
  exec_of_acts [.callWait 0, .run 0, .mk 0 10, .run 0, .run 0, .run 0, .callWait 1, .run 1, .mk 1 11, .run 1, .run 1,
    .run 1, .callNotify 2 false, .run 2, .run 2, .run 2, .run 2, .run 2] _ (by decide +kernel)

/-! ### C23 -/

theorem Exec.quiet_lock (hstd : c.std = true) (h : Exec c tr s) (hq : Quiescent tr) :
    s.lock = 0#3 ∨ s.lock = 4#3 ∨ s.lock = 6#3 := by
  obtain ⟨o, hl⟩ := h.lockInv hstd
  cases o with
  | none => exact hl.free rfl
  | some a =>
    exfalso
    have := hl.held a rfl
    by_cases hc : Called tr a
    · rw [(h.done_iff a).2 (hq a hc)] at this; cases this
    · rw [(h.idle_iff a).2 hc] at this; cases this

/-- The actions of one undisturbed call of `wait_with`, and the events they should produce. -/
def soloWait (a : OpId) (v : W) : List (Act W) := [.callWait a, .run a, .mk a v, .run a, .run a, .run a]
def soloWaitEvs (a : OpId) (v : W) : Trace W :=
  [.callWait a, .mk a v, .accBegin a, .accEnd a, .register a v, .retWait a .wait]
/-- ... of `notify`. -/
def soloNotify (b : OpId) : List (Act W) := [.callNotify b false, .run b, .run b, .run b, .run b, .run b]
def soloNotifyEvs (b : OpId) (v : W) : Trace W :=
  [.callNotify b false, .signal b false, .accBegin b, .accEnd b, .wake b v, .retNotify b true]

/-- **C23** (partial: needs the feature `std`, and says nothing about the run in which the factory panics while
a notification arrives, see `C23_no_std_wedges` and `C23_assertion_fails`).  Whatever has happened before,
including any number of panics of waker factories at any point, once all operations have returned and the cell
has not been closed, an undisturbed `wait_with` registers its waker and an undisturbed `notify` after it wakes
that waker. -/
theorem C23_not_wedged_partial (hstd : c.std = true) (h : Exec c tr s) (hq : Quiescent tr)
    (hopen : ∀ b, .callNotify b true ∉ tr) {a b : OpId} (ha : ¬ Called tr a) (hb : ¬ Called tr b) (hab : a ≠ b) (v : W) :
    ∃ s1 s2, runActs c s (soloWait a v) = some (s1, soloWaitEvs a v) ∧
      runActs c s1 (soloNotify b) = some (s2, soloNotifyEvs b v) := by
  have hok := h.evOk hstd
  have hl : s.lock = 0#3 := by
    have hnc : ¬ contains s.lock TX_CLOSED = true := by
      intro hc
      obtain ⟨d, hd⟩ := h.closedInv.bit.1 hc
      obtain ⟨k1, k2, hk⟩ := List.append_of_mem hd
      exact hopen d (by rw [hk]; simp [(hok k1 (.signal d true) k2 hk).1])
    rcases h.quiet_lock hstd hq with h1 | h1 | h1
    · exact h1
    · exact absurd (by rw [h1]; decide) hnc
    · exact absurd (by rw [h1]; decide) hnc
  have hpa := (h.idle_iff a).2 ha
  have hpb := (h.idle_iff b).2 hb
  refine ⟨?s1, ?s2, ?_, ?_⟩
  rotate_left 2
  · simp [soloWait, soloWaitEvs, runActs, step, runStep, hpa, State.goto, waitStart, hl, WAITING, waitUnlock]
    rfl
  · have : b ≠ a := Ne.symm hab
    simp [soloNotify, soloNotifyEvs, runActs, step, runStep, hpb, State.goto, notifyStart, WAITING, this]
    rfl

/-- **C23** If the cell was closed, later waits are still told so after panics. -/
theorem C23_closed_partial (hstd : c.std = true) (h : Exec c tr s) (hq : Quiescent tr)
    {d : OpId} (hclosed : .callNotify d true ∈ tr) {a : OpId} (ha : ¬ Called tr a) :
    ∃ s', runActs c s [.callWait a, .run a] = some (s', [.callWait a, .retWait a .closed]) := by
  have hok := h.evOk hstd
  have hsig : .signal d true ∈ tr := by
    have hop := h.opOk d
    rw [(h.done_iff d).2 (hq d (.inr ⟨true, hclosed⟩))] at hop
    simp only [OpOk] at hop
    rcases hop.1 with ⟨_, h2⟩ | ⟨_, c', _, h2, h3⟩
    · exact absurd (mem_mine.2 ⟨hclosed, rfl⟩) (h2 true)
    · have := h3 true (mem_mine.2 ⟨hclosed, rfl⟩)
      rw [← this] at h2
      exact (mem_mine.1 h2).1
  have hbit := h.closedInv.bit.2 ⟨d, hsig⟩
  have hne : s.lock ≠ WAITING := by intro h0; rw [h0] at hbit; revert hbit; decide
  refine ⟨?_, ?_⟩
  rotate_left 1
  · simp [runActs, step, runStep, (h.idle_iff a).2 ha, State.goto, waitStart, hne, hbit]
    rfl

/-- Assertions only fail in calls whose waker factory panicked. -/
theorem C23_assertions (hstd : c.std = true) (h : Exec c tr s) {a : OpId} (ha : .assertFailed a ∈ tr) :
    .mkPanic a ∈ tr := by
  obtain ⟨k1, k2, hk⟩ := List.append_of_mem ha
  have := h.evOk hstd k1 (.assertFailed a) k2 hk
  have h2 : Event.mkPanic a ∈ k1 := this
  rw [hk]; simp [h2]

/-- A registration, a poll whose factory panics, all returned, and then the situation of
`C23_not_wedged_partial`. -/
example : ∃ s, Exec debugBuild (W := Nat)
    [.callWait 0, .mk 0 10, .accBegin 0, .accEnd 0, .register 0 10, .retWait 0 .wait,
     .callWait 1, .mkPanic 1, .retWait 1 .panicked,
     .callWait 2, .callNotify 3 false, .signal 3 false, .retNotify 3 false, .mk 2 11, .accBegin 2, .accEnd 2,
     .accBegin 2, .accEnd 2, .wake 2 10, .wake 2 11, .retWait 2 .notified] s :=
  exec_of_acts [.callWait 0, .run 0, .mk 0 10, .run 0, .run 0, .run 0,
    .callWait 1, .run 1, .mkPanic 1, .run 1,
    .callWait 2, .run 2, .callNotify 3 false, .run 3, .mk 2 11, .run 2, .run 2, .run 2, .run 2, .run 2, .run 2, .run 2,
    .run 2, .run 2] _ (by decide +kernel)

/-- **C23** is false without the feature `std`: after a panic of the waker factory everything has returned, but
a later wait (1) is told to wait without its waker having been registered, and a notification (2) wakes
nobody. -/
theorem C23_no_std_wedges : ∃ (tr : Trace Nat) (s : State Nat), Exec noStd tr s ∧ OneRx tr ∧ tr =
    [.callWait 0, .mkPanic 0, .retWait 0 .panicked, .callWait 1, .retWait 1 .wait,
     .callNotify 2 false, .signal 2 false, .retNotify 2 false] := by
  obtain ⟨s, hs⟩ := exec_of_acts (c := noStd) (W := Nat)
    [.callWait 0, .run 0, .mkPanic 0, .callWait 1, .run 1, .callNotify 2 false, .run 2]
    [.callWait 0, .mkPanic 0, .retWait 0 .panicked, .callWait 1, .retWait 1 .wait,
     .callNotify 2 false, .signal 2 false, .retNotify 2 false] (by decide +kernel)
  exact ⟨_, s, hs, oneRx_of_B (by decide), rfl⟩

/-- **C23**, **C20** With debug assertions a registered waker can be lost: waker 10 is registered; on a re-poll the
factory panics while a notification arrives; `debug_assert!(panicked.is_none())` fails and waker 10 is
dropped without having been woken. -/
theorem C23_assertion_fails : ∃ (s : State Nat), Exec debugBuild (W := Nat)
    [.callWait 0, .mk 0 10, .accBegin 0, .accEnd 0, .register 0 10, .retWait 0 .wait,
     .callWait 1, .callNotify 2 false, .signal 2 false, .retNotify 2 false, .mkPanic 1,
     .accBegin 1, .accEnd 1, .assertFailed 1] s ∧ s.waiter = none := by
  have h : (runActs debugBuild (State.init Nat) [.callWait 0, .run 0, .mk 0 10, .run 0, .run 0, .run 0,
    .callWait 1, .run 1, .callNotify 2 false, .run 2, .mkPanic 1, .run 1, .run 1, .run 1, .run 1, .run 1]).map
    (fun p => (p.2, p.1.waiter)) = some (
    [.callWait 0, .mk 0 10, .accBegin 0, .accEnd 0, .register 0 10, .retWait 0 .wait,
     .callWait 1, .callNotify 2 false, .signal 2 false, .retNotify 2 false, .mkPanic 1,
     .accBegin 1, .accEnd 1, .assertFailed 1], none) := by decide +kernel
  obtain ⟨⟨s, t⟩, h1, h2⟩ := Option.map_eq_some_iff.1 h
  simp only [Prod.mk.injEq] at h2
  refine ⟨s, ?_, h2.2⟩
  have := Exec.init.of_runActs h1
  rw [List.nil_append, h2.1] at this
  exact this

end Thingbuf.Cell
