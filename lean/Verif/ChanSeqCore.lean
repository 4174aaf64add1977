import Verif.ChanSeq
import Verif.Seq
/-!
# Sequential use of the channel: the ring buffer
-/

namespace Thingbuf.Chan

variable {w cap : Nat} {V W : Type}

/-- At rest, the ring buffer represents the list `q`; `H` elements have been dequeued, `cl`: it is closed, and the
operation numbers from `n` on are unused. -/
structure CoreAt (w cap : Nat) (s : Thingbuf.State w V) (H : Nat) (q : List V) (cl : Bool) (n : Nat) : Prop where
  head : s.head = enc w cap H
  tail : s.tail = tailWord w cap (H + q.length) cl
  len : q.length ≤ cap
  busy : ∀ j, (hj : j < q.length) → s.st ((H + j) % cap) = enc w cap (H + j) + 1#w ∧
    s.val ((H + j) % cap) = some q[j]
  free : ∀ p, H + q.length ≤ p → p < H + cap → s.st (p % cap) = enc w cap p
  fresh : ∀ a, n ≤ a → s.pc a = .idle

theorem CoreAt.init : CoreAt w cap (Thingbuf.State.init w V) 0 [] false 0 where
  head := SeqRel.init.head
  tail := by rw [tailWord_false]; exact (SeqRel.init (cap := cap)).tail
  len := by simp
  busy := by intro j hj; simp at hj
  free := SeqRel.init.free
  fresh := fun _ _ => rfl

/-- The state changed only in the program counters. -/
theorem CoreAt.pcs {s s' : Thingbuf.State w V} {H n m : Nat} {q : List V} {cl : Bool} (h : CoreAt w cap s H q cl n)
    (h1 : s'.head = s.head) (h2 : s'.tail = s.tail) (h3 : s'.st = s.st) (h4 : s'.val = s.val)
    (h5 : ∀ a, m ≤ a → s'.pc a = .idle) : CoreAt w cap s' H q cl m := by
  obtain ⟨a1, a2, a3, a4, a5, _⟩ := h
  exact ⟨by rw [h1, a1], by rw [h2, a2], a3, by rw [h3, h4]; exact a4, by rw [h3]; exact a5, h5⟩

/-- A push was completed. -/
theorem CoreAt.pushed {s s' : Thingbuf.State w V} {H n m : Nat} {q : List V} {v : V}
    (h : CoreAt w cap s H q false n) (hl : q.length < cap) (h1 : s'.head = s.head)
    (h2 : s'.tail = enc w cap (H + q.length + 1))
    (h3 : s'.st = upd s.st ((H + q.length) % cap) (enc w cap (H + q.length) + 1#w))
    (h4 : s'.val ((H + q.length) % cap) = some v)
    (h5 : ∀ j, j ≠ (H + q.length) % cap → s'.val j = s.val j)
    (h6 : ∀ a, m ≤ a → s'.pc a = .idle) : CoreAt w cap s' H (q ++ [v]) false m := by
  constructor
  · rw [h1, h.head]
  · rw [h2, tailWord_false]; simp [Nat.add_assoc]
  · simp only [List.length_append, List.length_cons, List.length_nil]; omega
  · intro j hj
    simp only [List.length_append, List.length_cons, List.length_nil] at hj
    by_cases hjq : j = q.length
    · subst hjq; simp [h3, h4]
    · have hj' : j < q.length := by omega
      have hne : (H + j) % cap ≠ (H + q.length) % cap := by
        intro he
        have := mod_inj_window (H := H) he (by omega) (by omega) (by omega) (by omega)
        omega
      rw [h3, h5 _ hne, upd_ne _ _ hne]
      simp only [List.getElem_append_left hj']
      exact h.busy j hj'
  · intro p hp1 hp2
    simp only [List.length_append, List.length_cons, List.length_nil] at hp1
    have hne : p % cap ≠ (H + q.length) % cap := by
      intro he
      have := mod_inj_window (H := H) he (by omega) (by omega) (by omega) (by omega)
      omega
    rw [h3, upd_ne _ _ hne]
    exact h.free p (by omega) hp2
  · exact h6

/-- A pop was completed. -/
theorem CoreAt.popped {s s' : Thingbuf.State w V} {H n m : Nat} {x : V} {q : List V} {cl : Bool}
    (h : CoreAt w cap s H (x :: q) cl n) (h1 : s'.head = enc w cap (H + 1)) (h2 : s'.tail = s.tail)
    (h3 : s'.st = upd s.st (H % cap) (enc w cap (H + cap))) (h5 : ∀ j, j ≠ H % cap → s'.val j = s.val j)
    (h6 : ∀ a, m ≤ a → s'.pc a = .idle) : CoreAt w cap s' (H + 1) q cl m := by
  have hlen := h.len
  simp only [List.length_cons] at hlen
  constructor
  · exact h1
  · rw [h2, h.tail]
    simp only [List.length_cons]
    rw [show H + (q.length + 1) = H + 1 + q.length by omega]
  · omega
  · intro j hj
    have hne : (H + 1 + j) % cap ≠ H % cap := by
      intro he
      have := mod_inj_window (H := H) he (by omega) (by omega) (by omega) (by omega)
      omega
    rw [h3, h5 _ hne, upd_ne _ _ hne]
    have := h.busy (j + 1) (by simpa using hj)
    simpa only [show H + (j + 1) = H + 1 + j by omega, List.getElem_cons_succ] using this
  · intro p hp1 hp2
    by_cases hp : p = H + cap
    · subst hp; simp [h3]
    · have hne : p % cap ≠ H % cap := by
        intro he
        have := mod_inj_window (H := H) he (by omega) (by omega) (by omega) (by omega)
        omega
      rw [h3, upd_ne _ _ hne]
      exact h.free p (by simp only [List.length_cons]; omega) (by omega)
  · exact h6

/-! ## Runs -/

/-- Events of the ring buffer that cannot be observed. -/
def silent : Event V → Bool
  | .access _ _ (.read _) | .ret _ .panicked => false
  | _ => true

theorem obs_silent {e : List (Event V)} (h : ∀ x ∈ e, silent x = true) : obs (e.map Ev.core : Trace V W) = [] := by
  unfold obs
  rw [List.filterMap_eq_nil_iff]
  intro y hy
  obtain ⟨x, hx, rfl⟩ := List.mem_map.1 hy
  have := h x hx
  cases x with
  | access a i x => cases x <;> simp_all [silent, Ev.obs]
  | ret a r => cases r <;> simp_all [silent, Ev.obs]
  | _ => rfl

/-- An operation of the ring buffer runs alone, by the actions `act`, until it returns `r`. -/
inductive CoreRun (cap : Nat) (act : Thingbuf.State w V → Nat → Thingbuf.Act V) :
    Thingbuf.State w V → Nat → Thingbuf.State w V → Ret → Nat → Prop where
  | last {s s' : Thingbuf.State w V} {i : Nat} {e : List (Event V)} {r : Ret} :
      Thingbuf.step cap s (act s i) = some (s', e) → coreRet e = some r → (∀ x ∈ e, silent x = true) →
      CoreRun cap act s i s' r (i + 1)
  | more {s s1 s' : Thingbuf.State w V} {i j : Nat} {e : List (Event V)} {r : Ret} :
      Thingbuf.step cap s (act s i) = some (s1, e) → coreRet e = none → (∀ x ∈ e, silent x = true) →
      CoreRun cap act s1 (i + 1) s' r j → CoreRun cap act s i s' r j

/-- The next action of a push. -/
def pushAct (env : Env V) (a : OpId) (s : Thingbuf.State w V) (i : Nat) : Thingbuf.Act V :=
  match s.pc a with
  | .pushInit _ => .elem a (env.junk i)
  | _ => runAct a (spurAt s a (env.spur i))

/-- The next action of a pop or close. -/
def popAct (env : Env V) (a : OpId) (s : Thingbuf.State w V) (i : Nat) : Thingbuf.Act V :=
  runAct a (spurAt s a (env.spur i))

/-- Weak compare-and-swaps fail spuriously only finitely often. -/
def Env.Calm (env : Env V) : Prop := ∃ n, ∀ i, n ≤ i → env.spur i = false

variable {s : Thingbuf.State w V} {a : OpId} {i H n : Nat} {q : List V} {cl : Bool} {env : Env V}

theorem CoreRun.push_loop (hw : WellSized w cap) {T : Nat} (ht : s.tail = enc w cap T)
    (hst : s.st (T % cap) = enc w cap T) {N : Nat} (hN : ∀ i, N ≤ i → env.spur i = false) :
    ∀ m i b, N ≤ i + m → ∃ x j, CoreRun cap (pushAct env a) (s.goto a (.pushLoop b (enc w cap T))) i
      { s.goto a (.pushHeld (T % cap) (enc w cap T + 1#w)) with
        tail := enc w cap (T + 1), val := upd s.val (T % cap) (some x) } .pushed j ∧ i ≤ j := by
  have hl : ∀ b pc, pushLoop (Params.new w cap) cap (s.goto a pc) a b (enc w cap T) =
      ((s.goto a pc).goto a (.pushCas b (enc w cap T)), []) := fun b pc =>
    pushLoop_free hw (by simpa using hst)
  have hok : ∀ i b, env.spur (i + 1) = false →
      ∃ x j, CoreRun cap (pushAct env a) (s.goto a (.pushLoop b (enc w cap T))) i
      { s.goto a (.pushHeld (T % cap) (enc w cap T + 1#w)) with
        tail := enc w cap (T + 1), val := upd s.val (T % cap) (some x) } .pushed j ∧ i ≤ j := by
    intro i b hsp
    have hc : pushCas (Params.new w cap) (s.goto a (.pushCas b (enc w cap T))) a b (enc w cap T) false = _ :=
      pushCas_ok hw (by simpa using ht)
    refine ⟨env.junk (i + 1 + 1), i + 1 + 1 + 1, .more (s1 := s.goto a (.pushCas b (enc w cap T))) (e := []) ?_ rfl (by simp)
      (.more (s1 := { s.goto a (.pushInit (enc w cap T)) with tail := enc w cap (T + 1) })
        (e := [.reserve a (T % cap)]) ?_ rfl (by simp [silent]) (.last (e := [.access a (T % cap)
          (if T / cap % numGens w cap = 0 then .create (env.junk (i + 1 + 1))
            else .recycle (s.val (T % cap)) (env.junk (i + 1 + 1))), .ret a .pushed]) ?_ rfl ?_)), by omega⟩
    · simp [pushAct, spurAt, runAct, Thingbuf.step, runStep, hl]
    · simp [pushAct, spurAt, runAct, hsp, Thingbuf.step, runStep, hc]
    · simp only [pushAct, goto_pc_self', Thingbuf.step]
      rw [pushElem_eq hw]
      simp [Thingbuf.State.goto]
      funext b
      simp only [upd]
      split <;> rfl
    · split <;> simp [silent]
  intro m
  induction m with
  | zero => intro i b hi; exact hok i b (hN _ (by omega))
  | succ m ih =>
    intro i b hi
    cases hsp : env.spur (i + 1) with
    | false => exact hok i b hsp
    | true =>
      obtain ⟨x, j, hr, hj⟩ := ih (i + 1 + 1) b.spin (by omega)
      have hc : pushCas (Params.new w cap) (s.goto a (.pushCas b (enc w cap T))) a b (enc w cap T) true = _ :=
        pushCas_spurious hw
      refine ⟨x, j, .more (s1 := s.goto a (.pushCas b (enc w cap T))) (e := []) ?_ rfl (by simp) (.more
        (s1 := s.goto a (.pushLoop b.spin (enc w cap T))) (e := []) ?_ rfl (by simp) hr), by omega⟩
      · simp [pushAct, spurAt, runAct, Thingbuf.step, runStep, hl]
      · simp [pushAct, spurAt, runAct, hsp, Thingbuf.step, hc, ht]

/-- A push when there is room. -/
theorem CoreAt.push_ok (hw : WellSized w cap) (hr : CoreAt w cap s H q false n) (hl : q.length < cap) (hc : env.Calm) :
    ∃ x j, CoreRun cap (pushAct env a) (s.goto a .pushStart) i
      { s.goto a (.pushHeld ((H + q.length) % cap) (enc w cap (H + q.length) + 1#w)) with
        tail := enc w cap (H + q.length + 1), val := upd s.val ((H + q.length) % cap) (some x) } .pushed j ∧ i ≤ j := by
  obtain ⟨N, hN⟩ := hc
  have ht := hr.tail
  rw [tailWord_false] at ht
  obtain ⟨x, j, h, hj⟩ := CoreRun.push_loop (a := a) hw ht (hr.free _ (Nat.le_refl _) (by omega)) hN N (i + 1) .new (by omega)
  refine ⟨x, j, .more (e := []) ?_ rfl (by simp) h, by omega⟩
  simp [pushAct, spurAt, runAct, Thingbuf.step, runStep, ht]

/-- A push when the buffer is full. -/
theorem CoreAt.push_full (hw : WellSized w cap) (hr : CoreAt w cap s H q false n) (hl : q.length = cap) :
    ∃ j, CoreRun cap (pushAct env a) (s.goto a .pushStart) i (s.goto a .done) .full j ∧ i ≤ j := by
  have hpos := hw.1
  have hm : (H + q.length) % cap = H % cap := by rw [hl]; simp
  have hst : s.st ((H + q.length) % cap) = enc w cap H + 1#w := by
    rw [hm]
    exact (hr.busy 0 (by omega)).1
  have ht := hr.tail
  rw [tailWord_false] at ht
  have e1 : ∀ pc, pushLoop (Params.new w cap) cap (s.goto a pc) a .new (enc w cap (H + q.length)) = _ := fun pc =>
    pushLoop_prev hw (P := H) (by rw [hl]) (by simpa using hst)
  have e2 : ∀ pc, pushHead (Params.new w cap) (s.goto a pc) a .new (enc w cap (H + q.length)) = _ := fun pc =>
    pushHead_full hw (H := H) (by simpa using hr.head) (by rw [hl])
  refine ⟨i + 1 + 1 + 1, .more (s1 := s.goto a (.pushLoop .new (enc w cap (H + q.length)))) (e := []) ?_ rfl (by simp)
    (.more (s1 := s.goto a (.pushHead .new (enc w cap (H + q.length)))) (e := []) ?_ rfl (by simp)
    (.last (e := [.ret a .full]) ?_ rfl (by simp [silent]))), by omega⟩
  · simp [pushAct, spurAt, runAct, Thingbuf.step, runStep, ht]
  · simp [pushAct, spurAt, runAct, Thingbuf.step, runStep, e1]
  · simp [pushAct, spurAt, runAct, Thingbuf.step, runStep, e2]

/-- A push when the channel is closed. -/
theorem CoreAt.push_closed (hw : WellSized w cap) (hr : CoreAt w cap s H q true n) :
    ∃ j, CoreRun cap (pushAct env a) (s.goto a .pushStart) i (s.goto a .done) .closed j ∧ i ≤ j := by
  refine ⟨i + 1 + 1, .more (s1 := s.goto a (.pushLoop .new (tailWord w cap (H + q.length) true))) (e := []) ?_ rfl (by simp)
    (.last (e := [.ret a .closed]) ?_ rfl (by simp [silent])), by omega⟩
  · simp [pushAct, spurAt, runAct, Thingbuf.step, runStep, hr.tail]
  · simp [pushAct, spurAt, runAct, Thingbuf.step, runStep, pushLoop_closed hw]

theorem CoreRun.pop_loop (hw : WellSized w cap) (hh : s.head = enc w cap H)
    (hst : s.st (H % cap) = enc w cap H + 1#w) {N : Nat} (hN : ∀ i, N ≤ i → env.spur i = false) :
    ∀ m i b, N ≤ i + m → ∃ j, CoreRun cap (popAct env a) (s.goto a (.popLoop b (enc w cap H))) i
      { s.goto a (.popHeld (H % cap) (enc w cap (H + cap))) with head := enc w cap (H + 1) } .popped j ∧ i ≤ j := by
  have hl : ∀ b pc, popLoop (Params.new w cap) cap (s.goto a pc) a b (enc w cap H) =
      ((s.goto a pc).goto a (.popCas b (enc w cap H)), []) := fun b pc =>
    popLoop_ready hw (by simpa using hst)
  have hok : ∀ i b, env.spur (i + 1) = false →
      ∃ j, CoreRun cap (popAct env a) (s.goto a (.popLoop b (enc w cap H))) i
      { s.goto a (.popHeld (H % cap) (enc w cap (H + cap))) with head := enc w cap (H + 1) } .popped j ∧ i ≤ j := by
    intro i b hsp
    have hc : popCas (Params.new w cap) (s.goto a (.popCas b (enc w cap H))) a b (enc w cap H) false = _ :=
      popCas_ok hw (by simpa using hh)
    refine ⟨i + 1 + 1, .more (s1 := s.goto a (.popCas b (enc w cap H))) (e := []) ?_ rfl (by simp)
      (.last (e := [.dequeue a (H % cap) (s.val (H % cap)), .ret a .popped]) ?_ rfl (by simp [silent])), by omega⟩
    · simp [popAct, spurAt, runAct, Thingbuf.step, runStep, hl]
    · simp [popAct, spurAt, runAct, hsp, Thingbuf.step, runStep, hc]
  intro m
  induction m with
  | zero => intro i b hi; exact hok i b (hN _ (by omega))
  | succ m ih =>
    intro i b hi
    cases hsp : env.spur (i + 1) with
    | false => exact hok i b hsp
    | true =>
      obtain ⟨j, hr, hj⟩ := ih (i + 1 + 1) b.spin (by omega)
      have hc : popCas (Params.new w cap) (s.goto a (.popCas b (enc w cap H))) a b (enc w cap H) true = _ :=
        popCas_spurious hw
      refine ⟨j, .more (s1 := s.goto a (.popCas b (enc w cap H))) (e := []) ?_ rfl (by simp) (.more
        (s1 := s.goto a (.popLoop b.spin (enc w cap H))) (e := []) ?_ rfl (by simp) hr), by omega⟩
      · simp [popAct, spurAt, runAct, Thingbuf.step, runStep, hl]
      · simp [popAct, spurAt, runAct, hsp, Thingbuf.step, hc, hh]

/-- A pop when there is a message. -/
theorem CoreAt.pop_ok {x : V} (hw : WellSized w cap) (hr : CoreAt w cap s H (x :: q) cl n) (hc : env.Calm) :
    ∃ j, CoreRun cap (popAct env a) (s.goto a .popStart) i
      { s.goto a (.popHeld (H % cap) (enc w cap (H + cap))) with head := enc w cap (H + 1) } .popped j ∧ i ≤ j := by
  obtain ⟨N, hN⟩ := hc
  have hst := (hr.busy 0 (by simp)).1
  rw [Nat.add_zero] at hst
  obtain ⟨j, h, hj⟩ := CoreRun.pop_loop (a := a) hw hr.head hst hN N (i + 1) .new (by omega)
  refine ⟨j, .more (e := []) ?_ rfl (by simp) h, by omega⟩
  simp [popAct, spurAt, runAct, Thingbuf.step, runStep, hr.head]

/-- A pop when there is no message. -/
theorem CoreAt.pop_none (hw : WellSized w cap) (hr : CoreAt w cap s H [] cl n) :
    ∃ j, CoreRun cap (popAct env a) (s.goto a .popStart) i (s.goto a .done) (if cl then .closed else .empty) j ∧ i ≤ j := by
  have hpos := hw.1
  have hst := hr.free H (by simp) (by omega)
  have ht : s.tail = tailWord w cap H cl := by simpa using hr.tail
  have e1 : ∀ pc, popLoop (Params.new w cap) cap (s.goto a pc) a .new (enc w cap H) = _ := fun pc =>
    popLoop_free hw (by simpa using hst)
  have e2 : ∀ pc, popTail (Params.new w cap) (s.goto a pc) a .new (enc w cap H) = _ := fun pc =>
    popTail_empty hw (c := cl) (by simpa using ht)
  refine ⟨i + 1 + 1 + 1, .more (s1 := s.goto a (.popLoop .new (enc w cap H))) (e := []) ?_ rfl (by simp)
    (.more (s1 := s.goto a (.popTail .new (enc w cap H))) (e := []) ?_ rfl (by simp)
    (.last (e := [.ret a (if cl then .closed else .empty)]) ?_ rfl (by cases cl <;> simp [silent]))), by omega⟩
  · simp [popAct, spurAt, runAct, Thingbuf.step, runStep, hr.head]
  · simp [popAct, spurAt, runAct, Thingbuf.step, runStep, e1]
  · simp [popAct, spurAt, runAct, Thingbuf.step, runStep, e2]

/-- `close`. -/
theorem CoreAt.close (hw : WellSized w cap) (hr : CoreAt w cap s H q cl n) :
    CoreRun cap (fun _ _ => .run a) (s.goto a (.closeStart false)) i
      { s.goto a .done with tail := tailWord w cap (H + q.length) true } (.closeRet (!cl)) (i + 1) := by
  refine .last (e := [.close a, .ret a (.closeRet (!cl))]) ?_ rfl (by simp [silent])
  have h1 : ((s.tail &&& (Params.new w cap).closed = 0#w : Prop)) ↔ cl = false := by
    have := closedBit_tailWord hw (H + q.length) cl
    rw [← hr.tail] at this
    cases cl <;> simp_all
  have h2 : s.tail ||| (Params.new w cap).closed = tailWord w cap (H + q.length) true := by
    rw [hr.tail, tailWord_or_closed]
  simp only [Thingbuf.step, runStep, goto_pc_self', closeStep, goto_tail, h2, goto_goto]
  cases cl <;> simp_all

end Thingbuf.Chan
