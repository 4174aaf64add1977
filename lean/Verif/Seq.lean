import Verif.DropSlots
import Verif.StepLemmas
/-
Sequential use through the by-value API: `push`, `pop` and `len` of `ThingBuf`/`StaticThingBuf`.
C17, and the consequences of the position counter wrapping (C08, C10).
-/
namespace Thingbuf

variable {w cap : Nat} {V : Type}

/-! ### The API functions -/

/-- One call made by the only thread.  `junk` is whatever `new_element`/`recycle` happens to
produce during the call, `sp` how often `compare_exchange_weak` fails spuriously. `push_ref`, `pop_ref`, `len` and
`close` (/repo/src/lib.rs lines 168-386), called one at a time. -/
inductive Call (V : Type) where
  | push (v junk : V) (sp : Nat)
  | pop (junk : V) (sp : Nat)
  | len

/-- What the caller sees. The results of the functions cited at `Call`. -/
inductive Out (V : Type) where
  | ok
  /-- `Err(Full(v))` -/
  | full (v : V)
  | none
  | some (v : V)
  | len (n : Nat)
deriving DecidableEq, Repr

/-- Run operation `a` alone until it cannot move by itself (or the fuel is used up); the first
`sp` CASes fail spuriously. Scaffolding of the model, no counterpart in the source. -/
def soloSp (cap : Nat) (a : OpId) : Nat → Nat → State w V → State w V × Trace V
  | 0, _, s => (s, [])
  | n + 1, 0, s =>
    match step cap s (.run a) with
    | none => (s, [])
    | some (s', e) => let r := soloSp cap a n 0 s'; (r.1, e ++ r.2)
  | n + 1, sp + 1, s =>
    match step cap s (.spurious a) with
    | some (s', e) => let r := soloSp cap a n sp s'; (r.1, e ++ r.2)
    | none =>
      match step cap s (.run a) with
      | none => (s, [])
      | some (s', e) => let r := soloSp cap a n (sp + 1) s'; (r.1, e ++ r.2)

/-- `ThingBuf::push` (/repo/src/thingbuf.rs lines 415-423; static_thingbuf.rs 434-442), `ThingBuf::pop`
(477-480; static 496-499, with `recycling::take`, /repo/src/recycling.rs 196-201) and
`ThingBuf::len` (270; static 377), called by the only thread, with operation id `a`.  `none`: the call does not
come back (out of fuel, panic, or `unreachable!()`). -/
def callStep (cap : Nat) (s : State w V) (a : OpId) : Call V → Option (State w V × Trace V × Out V)
  | .push v junk sp =>
    match step cap s (.invoke a .push) with
    | none => none
    | some (s1, e1) =>
      let r := soloSp cap a (3 + 2 * sp) sp s1
      match runActs cap r.1 [.elem a junk, .write a v, .dropRef a] with
      | some (s3, e3) => some (s3, e1 ++ r.2 ++ e3, .ok)
      | none => match r.2 with
        | [.ret _ .full] => some (r.1, e1 ++ r.2, .full v)
        | _ => none
  | .pop junk sp =>
    match step cap s (.invoke a .pop) with
    | none => none
    | some (s1, e1) =>
      let r := soloSp cap a (3 + 2 * sp) sp s1
      match runActs cap r.1 [.read a, .write a junk, .dropRef a] with
      | some (s3, e3) => match e3 with
        | .access _ _ (.read (some x)) :: _ => some (s3, e1 ++ r.2 ++ e3, .some x)
        | _ => none
      | none => match r.2 with
        | [.ret _ .empty] => some (r.1, e1 ++ r.2, .none)
        | _ => none
  | .len =>
    match step cap s (.invoke a .len) with
    | none => none
    | some (s1, e1) =>
      let r := soloSp cap a 3 0 s1
      match r.2 with
      | [.ret _ (.len n)] => some (r.1, e1 ++ r.2, .len n)
      | _ => none

/-- A sequence of calls, with operation ids from `k` on. Scaffolding of the model, no counterpart in the source. -/
def runCalls (cap : Nat) : State w V → Nat → List (Call V) → Option (State w V × Trace V × List (Out V))
  | s, _, [] => some (s, [], [])
  | s, k, c :: cs =>
    match callStep cap s k c with
    | none => none
    | some (s1, e1, o) =>
      match runCalls cap s1 (k + 1) cs with
      | none => none
      | some (s2, e2, os) => some (s2, e1 ++ e2, o :: os)

/-! ### Specification: a list with a capacity limit -/

/-- What a bounded FIFO list answers, and its next content. Specification, independent of the code. -/
def specStep (cap : Nat) (q : List V) : Call V → List V × Out V
  | .push v _ _ => if q.length < cap then (q ++ [v], .ok) else (q, .full v)
  | .pop _ _ => match q with
    | [] => ([], .none)
    | x :: q => (q, .some x)
  | .len => (q, .len q.length)

/-- The final content and the answers. Specification, independent of the code. -/
def specRun (cap : Nat) : List V → List (Call V) → List V × List (Out V)
  | q, [] => (q, [])
  | q, c :: cs =>
    let r := specRun cap (specStep cap q c).1 cs
    (r.1, (specStep cap q c).2 :: r.2)

/-! ### Proof -/

/-- The machine state represents the list `q`; `H` elements have been dequeued, and the
operation ids from `k` on are unused. Scaffolding of the model, no counterpart in the source. -/
structure SeqRel (w cap : Nat) (s : State w V) (H : Nat) (q : List V) (k : Nat) : Prop where
  head : s.head = enc w cap H
  tail : s.tail = enc w cap (H + q.length)
  len : q.length ≤ cap
  busy : ∀ j, (hj : j < q.length) → s.st ((H + j) % cap) = enc w cap (H + j) + 1#w ∧
    s.val ((H + j) % cap) = some q[j]
  free : ∀ p, H + q.length ≤ p → p < H + cap → s.st (p % cap) = enc w cap p
  fresh : ∀ a, k ≤ a → s.pc a = .idle

theorem SeqRel.init : SeqRel w cap (State.init w V) 0 [] 0 where
  head := by simp [State.init, enc]
  tail := by simp [State.init, enc]
  len := by simp
  busy := by intro j hj; simp at hj
  free := by
    intro p _ h2
    rw [enc_of_lt (by omega), Nat.mod_eq_of_lt (by omega)]
    rfl
  fresh := fun _ _ => rfl

theorem soloSp_zero_stop {s : State w V} {a : OpId} {n : Nat} (h : step cap s (.run a) = none) :
    soloSp cap a n 0 s = (s, []) := by
  cases n with
  | zero => rfl
  | succ n => simp [soloSp, h]

theorem soloSp_push {s : State w V} {a : OpId} {T sp : Nat} {b : Backoff} (hw : WellSized w cap)
    (ht : s.tail = enc w cap T) (hst : s.st (T % cap) = enc w cap T) :
    soloSp cap a (2 + 2 * sp) sp (s.goto a (.pushLoop b (enc w cap T))) =
      ({ s.goto a (.pushInit (enc w cap T)) with tail := enc w cap (T + 1) }, [.reserve a (T % cap)]) := by
  have hl : ∀ b pc, pushLoop (Params.new w cap) cap (s.goto a pc) a b (enc w cap T) =
      ((s.goto a pc).goto a (.pushCas b (enc w cap T)), []) := fun b pc =>
    pushLoop_free hw (by simpa using hst)
  induction sp generalizing b with
  | zero =>
    have hc : pushCas (Params.new w cap) (s.goto a (.pushCas b (enc w cap T))) a b (enc w cap T) false = _ :=
      pushCas_ok hw (by simpa using ht)
    simp [soloSp, step, runStep, hl, hc]
  | succ sp ih =>
    rw [show 2 + 2 * (sp + 1) = (2 + 2 * sp) + 1 + 1 by omega]
    have hc : pushCas (Params.new w cap) (s.goto a (.pushCas b (enc w cap T))) a b (enc w cap T) true = _ :=
      pushCas_spurious hw
    simp only [soloSp, step, runStep, goto_pc_self', hl, goto_goto, hc, goto_tail, ht, ih]
    rfl

theorem soloSp_pop {s : State w V} {a : OpId} {H sp : Nat} {b : Backoff} (hw : WellSized w cap)
    (hh : s.head = enc w cap H) (hst : s.st (H % cap) = enc w cap H + 1#w) :
    soloSp cap a (2 + 2 * sp) sp (s.goto a (.popLoop b (enc w cap H))) =
      ({ s.goto a (.popHeld (H % cap) (enc w cap (H + cap))) with head := enc w cap (H + 1) },
        [.dequeue a (H % cap) (s.val (H % cap)), .ret a .popped]) := by
  have hl : ∀ b pc, popLoop (Params.new w cap) cap (s.goto a pc) a b (enc w cap H) =
      ((s.goto a pc).goto a (.popCas b (enc w cap H)), []) := fun b pc =>
    popLoop_ready hw (by simpa using hst)
  induction sp generalizing b with
  | zero =>
    have hc : popCas (Params.new w cap) (s.goto a (.popCas b (enc w cap H))) a b (enc w cap H) false = _ :=
      popCas_ok hw (by simpa using hh)
    simp [soloSp, step, runStep, hl, hc]
  | succ sp ih =>
    rw [show 2 + 2 * (sp + 1) = (2 + 2 * sp) + 1 + 1 by omega]
    have hc : popCas (Params.new w cap) (s.goto a (.popCas b (enc w cap H))) a b (enc w cap H) true = _ :=
      popCas_spurious hw
    simp only [soloSp, step, runStep, goto_pc_self', hl, goto_goto, hc, goto_head, hh, ih]
    rfl

/-- One step of `soloSp` where the operation is not at a CAS. -/
theorem soloSp_run {s s' : State w V} {a : OpId} {e : Trace V} {n sp : Nat}
    (h1 : step cap s (.spurious a) = none) (h2 : step cap s (.run a) = some (s', e)) :
    soloSp cap a (n + 1) sp s = ((soloSp cap a n sp s').1, e ++ (soloSp cap a n sp s').2) := by
  cases sp with
  | zero => simp [soloSp, h2]
  | succ sp => simp [soloSp, h1, h2]

theorem soloSp_stop {s : State w V} {a : OpId} {n sp : Nat}
    (h1 : step cap s (.spurious a) = none) (h2 : step cap s (.run a) = none) :
    soloSp cap a n sp s = (s, []) := by
  cases n with
  | zero => rfl
  | succ n => cases sp with
    | zero => simp [soloSp, h2]
    | succ sp => simp [soloSp, h1, h2]

/-- The events of one call: the first is the invocation, all are by `a`, at most one
reservation, and the call returns. Scaffolding of the model, no counterpart in the source. -/
structure CallTrace (a : OpId) (evs : Trace V) : Prop where
  first : ∃ op e, evs = .invoke a op :: e ∧ ∀ b op', Event.invoke b op' ∉ e
  actor : ∀ e ∈ evs, e.actor = a
  one : nRes evs ≤ 1
  ret : Returned evs a
  nopanic : ∀ b, Event.ret b .panicked ∉ evs

theorem SeqRel.push_ok {s : State w V} {H : Nat} {q : List V} {k : Nat} (hw : WellSized w cap)
    (hr : SeqRel w cap s H q k) (hl : q.length < cap) (v junk : V) (sp : Nat) :
    ∃ s' acc, callStep cap s k (.push v junk sp) = some (s', [.invoke k .push,
        .reserve k ((H + q.length) % cap), .access k ((H + q.length) % cap) acc, .ret k .pushed,
        .access k ((H + q.length) % cap) (.write v), .commit k ((H + q.length) % cap) (some v)], .ok) ∧
      SeqRel w cap s' H (q ++ [v]) (k + 1) ∧
      ((H + q.length) / cap % numGens w cap = 0 → acc = .create junk) := by
  have hst := hr.free (H + q.length) (Nat.le_refl _) (by omega)
  have h3 : 3 + 2 * sp = (2 + 2 * sp) + 1 := by omega
  have hsolo : soloSp cap k (3 + 2 * sp) sp (s.goto k .pushStart) =
      ({ s.goto k (.pushInit (enc w cap (H + q.length))) with tail := enc w cap (H + q.length + 1) },
        [.reserve k ((H + q.length) % cap)]) := by
    rw [h3, soloSp_run (s' := s.goto k (.pushLoop .new (enc w cap (H + q.length)))) (e := [])
      (by simp [step]) (by simp [step, runStep, hr.tail]), soloSp_push hw hr.tail hst]
    rfl
  refine ⟨?s, ?acc, ?_, ?_, ?_⟩
  rotate_left 2
  · simp only [callStep, step, hr.fresh k (Nat.le_refl _), if_true, startPC, hsolo]
    simp only [runActs, step, State.goto, upd_self, pushElem_eq hw, List.cons_append, List.nil_append]
    rfl
  · constructor
    · exact hr.head
    · simp [Nat.add_assoc]
    · simp only [List.length_append, List.length_cons, List.length_nil]; omega
    · intro j hj
      simp only [List.length_append, List.length_cons, List.length_nil] at hj
      by_cases hjq : j = q.length
      · subst hjq; simp
      · have hj' : j < q.length := by omega
        have hne : (H + j) % cap ≠ (H + q.length) % cap := by
          intro he
          have := mod_inj_window (H := H) he (by omega) (by omega) (by omega) (by omega)
          omega
        simp only [upd_ne _ _ hne, List.getElem_append_left hj']
        exact hr.busy j hj'
    · intro p h1 h2
      simp only [List.length_append, List.length_cons, List.length_nil] at h1
      have hne : p % cap ≠ (H + q.length) % cap := by
        intro he
        have := mod_inj_window (H := H) he (by omega) (by omega) (by omega) (by omega)
        omega
      simp only [upd_ne _ _ hne]
      exact hr.free p (by omega) h2
    · intro a ha
      have hne : a ≠ k := by omega
      simp only [upd_ne _ _ hne]
      exact hr.fresh a (by omega)
  · intro hg
    simp [gen_eq_zero hw, hg]

theorem SeqRel.push_full {s : State w V} {H : Nat} {q : List V} {k : Nat} (hw : WellSized w cap)
    (hr : SeqRel w cap s H q k) (hl : q.length = cap) (v junk : V) (sp : Nat) :
    ∃ s', callStep cap s k (.push v junk sp) = some (s', [.invoke k .push, .ret k .full], .full v) ∧
      SeqRel w cap s' H q (k + 1) := by
  have hpos := hw.1
  have hm : (H + q.length) % cap = H % cap := by rw [hl]; simp
  have hst : s.st ((H + q.length) % cap) = enc w cap H + 1#w := by
    rw [hm]
    exact (hr.busy 0 (by omega)).1
  have hsolo : soloSp cap k (3 + 2 * sp) sp (s.goto k .pushStart) =
      (s.goto k .done, [.ret k .full]) := by
    rw [show 3 + 2 * sp = 2 * sp + 1 + 1 + 1 by omega,
      soloSp_run (s' := s.goto k (.pushLoop .new (enc w cap (H + q.length)))) (e := [])
        (by simp [step]) (by simp [step, runStep, hr.tail]),
      soloSp_run (s' := s.goto k (.pushHead .new (enc w cap (H + q.length)))) (e := [])
        (by simp [step]) (by
          simp only [step, runStep, goto_pc_self']
          rw [pushLoop_prev hw (P := H) (by rw [hl]) (by simpa using hst), goto_goto]),
      soloSp_run (s' := s.goto k .done) (e := [.ret k .full])
        (by simp [step]) (by
          simp only [step, runStep, goto_pc_self']
          rw [pushHead_full hw (H := H) (by simpa using hr.head) (by rw [hl]), goto_goto]),
      soloSp_stop (by simp [step]) (by simp [step, runStep])]
    rfl
  refine ⟨s.goto k .done, ?_, ?_⟩
  · simp only [callStep, step, hr.fresh k (Nat.le_refl _), if_true, startPC, hsolo, runActs,
      goto_pc_self', List.cons_append, List.nil_append]
  · refine ⟨hr.head, hr.tail, hr.len, hr.busy, hr.free, ?_⟩
    intro a ha
    have hne : a ≠ k := by omega
    simp only [State.goto, upd_ne _ _ hne]
    exact hr.fresh a (by omega)

theorem SeqRel.pop_some {s : State w V} {H : Nat} {x : V} {q : List V} {k : Nat} (hw : WellSized w cap)
    (hr : SeqRel w cap s H (x :: q) k) (junk : V) (sp : Nat) :
    ∃ s', callStep cap s k (.pop junk sp) = some (s', [.invoke k .pop,
        .dequeue k (H % cap) (some x), .ret k .popped,
        .access k (H % cap) (.read (some x)), .access k (H % cap) (.write junk),
        .release k (H % cap) (some junk)], .some x) ∧
      SeqRel w cap s' (H + 1) q (k + 1) := by
  obtain ⟨hst, hval⟩ := hr.busy 0 (by simp)
  rw [Nat.add_zero] at hst hval
  simp only [List.getElem_cons_zero] at hval
  have hlen := hr.len
  simp only [List.length_cons] at hlen
  have hsolo : soloSp cap k (3 + 2 * sp) sp (s.goto k .popStart) =
      ({ s.goto k (.popHeld (H % cap) (enc w cap (H + cap))) with head := enc w cap (H + 1) },
        [.dequeue k (H % cap) (some x), .ret k .popped]) := by
    rw [show 3 + 2 * sp = (2 + 2 * sp) + 1 by omega,
      soloSp_run (s' := s.goto k (.popLoop .new (enc w cap H))) (e := [])
      (by simp [step]) (by simp [step, runStep, hr.head]), soloSp_pop hw hr.head hst, hval]
    rfl
  refine ⟨?s, ?_, ?_⟩
  rotate_left 1
  · simp only [callStep, step, hr.fresh k (Nat.le_refl _), if_true, startPC, hsolo]
    simp only [runActs, step, State.goto, upd_self, List.cons_append, List.nil_append, hval]
    rfl
  · constructor
    · rfl
    · simp only [hr.tail, List.length_cons]
      rw [show H + (q.length + 1) = H + 1 + q.length by omega]
    · omega
    · intro j hj
      have hne : (H + 1 + j) % cap ≠ H % cap := by
        intro he
        have := mod_inj_window (H := H) he (by omega) (by omega) (by omega) (by omega)
        omega
      simp only [upd_ne _ _ hne]
      have := hr.busy (j + 1) (by simpa using hj)
      simpa only [show H + (j + 1) = H + 1 + j by omega, List.getElem_cons_succ] using this
    · intro p h1 h2
      by_cases hp : p = H + cap
      · subst hp; simp
      · have hne : p % cap ≠ H % cap := by
          intro he
          have := mod_inj_window (H := H) he (by omega) (by omega) (by omega) (by omega)
          omega
        simp only [upd_ne _ _ hne]
        exact hr.free p (by simp only [List.length_cons]; omega) (by omega)
    · intro a ha
      have hne : a ≠ k := by omega
      simp only [upd_ne _ _ hne]
      exact hr.fresh a (by omega)

theorem SeqRel.pop_none {s : State w V} {H : Nat} {k : Nat} (hw : WellSized w cap)
    (hr : SeqRel w cap s H [] k) (junk : V) (sp : Nat) :
    ∃ s', callStep cap s k (.pop junk sp) = some (s', [.invoke k .pop, .ret k .empty], .none) ∧
      SeqRel w cap s' H [] (k + 1) := by
  have hpos := hw.1
  have hst := hr.free H (by simp) (by omega)
  have ht : s.tail = tailWord w cap H false := by
    have := hr.tail
    rw [tailWord_false]; simpa using this
  have hsolo : soloSp cap k (3 + 2 * sp) sp (s.goto k .popStart) =
      (s.goto k .done, [.ret k .empty]) := by
    rw [show 3 + 2 * sp = 2 * sp + 1 + 1 + 1 by omega,
      soloSp_run (s' := s.goto k (.popLoop .new (enc w cap H))) (e := [])
        (by simp [step]) (by simp [step, runStep, hr.head]),
      soloSp_run (s' := s.goto k (.popTail .new (enc w cap H))) (e := [])
        (by simp [step]) (by
          simp only [step, runStep, goto_pc_self']
          rw [popLoop_free hw (by simpa using hst), goto_goto]),
      soloSp_run (s' := s.goto k .done) (e := [.ret k .empty])
        (by simp [step]) (by
          simp only [step, runStep, goto_pc_self']
          rw [popTail_empty hw (by simpa using ht), goto_goto]; rfl),
      soloSp_stop (by simp [step]) (by simp [step, runStep])]
    rfl
  refine ⟨s.goto k .done, ?_, ?_⟩
  · simp only [callStep, step, hr.fresh k (Nat.le_refl _), if_true, startPC, hsolo, runActs,
      goto_pc_self', List.cons_append, List.nil_append]
  · refine ⟨hr.head, hr.tail, hr.len, hr.busy, hr.free, ?_⟩
    intro a ha
    have hne : a ≠ k := by omega
    simp only [State.goto, upd_ne _ _ hne]
    exact hr.fresh a (by omega)

theorem SeqRel.len_call {s : State w V} {H : Nat} {q : List V} {k : Nat} (hw : WellSized w cap)
    (hr : SeqRel w cap s H q k) :
    ∃ s', callStep cap s k .len = some (s', [.invoke k .len, .ret k (.len q.length)], .len q.length) ∧
      SeqRel w cap s' H q (k + 1) := by
  have hsolo : soloSp cap k 3 0 (s.goto k .lenStart) = (s.goto k .done, [.ret k (.len q.length)]) := by
    simp [soloSp, step, runStep, hr.tail, hr.head,
      lenOf_enc hw (h := H) (t := H + q.length) (by omega) (by have := hr.len; omega)]
  refine ⟨s.goto k .done, ?_, ?_⟩
  · simp only [callStep, step, hr.fresh k (Nat.le_refl _), if_true, startPC, hsolo,
      List.cons_append, List.nil_append]
  · refine ⟨hr.head, hr.tail, hr.len, hr.busy, hr.free, ?_⟩
    intro a ha
    have hne : a ≠ k := by omega
    simp only [State.goto, upd_ne _ _ hne]
    exact hr.fresh a (by omega)

/-- Every call answers like the list. -/
theorem SeqRel.call {s : State w V} {H : Nat} {q : List V} {k : Nat} (hw : WellSized w cap)
    (hr : SeqRel w cap s H q k) (c : Call V) :
    ∃ s' evs H', callStep cap s k c = some (s', evs, (specStep cap q c).2) ∧
      SeqRel w cap s' H' (specStep cap q c).1 (k + 1) ∧ CallTrace k evs ∧ H' = H + nDeq evs ∧
      H' + (specStep cap q c).1.length = H + q.length + nRes evs := by
  cases c with
  | push v junk sp =>
    by_cases hl : q.length < cap
    · obtain ⟨s', acc, h1, h2, _⟩ := hr.push_ok hw hl v junk sp
      refine ⟨s', _, H, by simp only [specStep, hl, if_true]; exact h1, by simp only [specStep, hl, if_true]; exact h2, ⟨⟨_, _, rfl, by simp⟩,
        by simp [Event.actor], by simp [nRes, resOps], ⟨.pushed, by simp⟩, by simp⟩, by simp [nDeq, deqOps],
        by simp [specStep, hl, nRes, resOps]; omega⟩
    · obtain ⟨s', h1, h2⟩ := hr.push_full hw (by have := hr.len; omega) v junk sp
      refine ⟨s', _, H, by simp only [specStep, hl, if_false]; exact h1, by simp only [specStep, hl, if_false]; exact h2, ⟨⟨_, _, rfl, by simp⟩,
        by simp [Event.actor], by simp [nRes, resOps], ⟨.full, by simp⟩, by simp⟩, by simp [nDeq, deqOps],
        by simp [specStep, hl, nRes, resOps]⟩
  | pop junk sp =>
    cases q with
    | nil =>
      obtain ⟨s', h1, h2⟩ := hr.pop_none hw junk sp
      exact ⟨s', _, H, h1, h2, ⟨⟨_, _, rfl, by simp⟩, by simp [Event.actor], by simp [nRes, resOps],
        ⟨.empty, by simp⟩, by simp⟩, by simp [nDeq, deqOps], by simp [specStep, nRes, resOps]⟩
    | cons x q =>
      obtain ⟨s', h1, h2⟩ := hr.pop_some hw junk sp
      exact ⟨s', _, H + 1, h1, h2, ⟨⟨_, _, rfl, by simp⟩, by simp [Event.actor], by simp [nRes, resOps],
        ⟨.popped, by simp⟩, by simp⟩, by simp [nDeq, deqOps], by simp [specStep, nRes, resOps]; omega⟩
  | len =>
    obtain ⟨s', h1, h2⟩ := hr.len_call hw
    exact ⟨s', _, H, h1, h2, ⟨⟨_, _, rfl, by simp⟩, by simp [Event.actor], by simp [nRes, resOps],
      ⟨_, by simp; rfl⟩, by simp⟩, by simp [nDeq, deqOps], by simp [specStep, nRes, resOps]⟩

theorem SeqRel.calls {s : State w V} {H : Nat} {q : List V} {k : Nat} (hw : WellSized w cap)
    (hr : SeqRel w cap s H q k) (cs : List (Call V)) :
    ∃ s' evs H', runCalls cap s k cs = some (s', evs, (specRun cap q cs).2) ∧
      SeqRel w cap s' H' (specRun cap q cs).1 (k + cs.length) ∧ H' = H + nDeq evs ∧
      H' + (specRun cap q cs).1.length = H + q.length + nRes evs := by
  induction cs generalizing s H q k with
  | nil => exact ⟨s, [], H, rfl, hr, by simp, by simp [specRun]⟩
  | cons c cs ih =>
    obtain ⟨s1, e1, H1, h1, h2, _, h4, h5⟩ := hr.call hw c
    obtain ⟨s2, e2, H2, h6, h7, h8, h9⟩ := ih h2
    refine ⟨s2, e1 ++ e2, H2, by simp [runCalls, h1, h6, specRun], ?_, ?_, ?_⟩
    · simp only [specRun, List.length_cons]
      rw [show k + (cs.length + 1) = k + 1 + cs.length by omega]; exact h7
    · rw [h8, h4, nDeq_append, Nat.add_assoc]
    · simp only [specRun]; rw [h9, h5, nRes_append, Nat.add_assoc]

/-- **C17** Sequential use is a bounded FIFO: for every well sized queue and every sequence of calls,
of any length, whatever `new_element`/`recycle` produce and however often the weak CAS fails
spuriously, every call returns and the answers are those of a list with a capacity limit. -/
theorem C17_sequential (hw : WellSized w cap) (cs : List (Call V)) :
    ∃ s evs, runCalls cap (State.init w V) 0 cs = some (s, evs, (specRun cap [] cs).2) := by
  obtain ⟨s', evs, _, h, _⟩ := SeqRel.init.calls hw cs
  exact ⟨s', evs, h⟩

example : (specRun 2 [] [.push 1 0 0, .push 2 0 3, .len, .push 3 0 0, .pop 0 1, .pop 0 0, .pop 0 0]).2 =
    [Out.ok, .ok, .len 2, .full 3, .some 1, .some 2, .none] := rfl

example : ((runCalls 2 (State.init 8 Nat) 0 [.push 1 0 0, .push 2 0 3, .len, .push 3 0 0, .pop 0 1, .pop 0 0,
    .pop 0 0]).map fun r => r.2.2) = some [Out.ok, .ok, .len 2, .full 3, .some 1, .some 2, .none] := by
  decide +kernel

/-! ### Sequential runs are runs -/

theorem Exec.soloSp {tr : Trace V} {s : State w V} {a : OpId} {n sp : Nat} (he : Exec w cap tr s) :
    Exec w cap (tr ++ (Thingbuf.soloSp cap a n sp s).2) (Thingbuf.soloSp cap a n sp s).1 := by
  induction n generalizing tr s sp with
  | zero => simpa [Thingbuf.soloSp] using he
  | succ n ih =>
    cases sp with
    | zero =>
      simp only [Thingbuf.soloSp]
      split
      · simpa using he
      · rename_i s' e h
        simpa using ih (he.step h)
    | succ sp =>
      simp only [Thingbuf.soloSp]
      split
      · rename_i s' e h
        simpa using ih (he.step h)
      · split
        · simpa using he
        · rename_i s' e h
          simpa using ih (he.step h)

theorem Exec.callStep {tr evs : Trace V} {s s' : State w V} {a : OpId} {c : Call V} {o : Out V}
    (he : Exec w cap tr s) (h : Thingbuf.callStep cap s a c = some (s', evs, o)) :
    Exec w cap (tr ++ evs) s' := by
  cases c with
  | push v junk sp =>
    simp only [Thingbuf.callStep] at h
    split at h
    · cases h
    · rename_i s1 e1 h1
      have hx := (he.step h1).soloSp (a := a) (n := 3 + 2 * sp) (sp := sp)
      split at h
      · rename_i s3 e3 h3
        simp only [Option.some.injEq, Prod.mk.injEq] at h
        obtain ⟨rfl, rfl, -⟩ := h
        simpa using hx.of_runActs h3
      · split at h
        · simp only [Option.some.injEq, Prod.mk.injEq] at h
          obtain ⟨rfl, rfl, -⟩ := h
          simpa using hx
        · cases h
  | pop junk sp =>
    simp only [Thingbuf.callStep] at h
    split at h
    · cases h
    · rename_i s1 e1 h1
      have hx := (he.step h1).soloSp (a := a) (n := 3 + 2 * sp) (sp := sp)
      split at h
      · rename_i s3 e3 h3
        split at h
        · simp only [Option.some.injEq, Prod.mk.injEq] at h
          obtain ⟨rfl, rfl, -⟩ := h
          simpa using hx.of_runActs h3
        · cases h
      · split at h
        · simp only [Option.some.injEq, Prod.mk.injEq] at h
          obtain ⟨rfl, rfl, -⟩ := h
          simpa using hx
        · cases h
  | len =>
    simp only [Thingbuf.callStep] at h
    split at h
    · cases h
    · rename_i s1 e1 h1
      have hx := (he.step h1).soloSp (a := a) (n := 3) (sp := 0)
      split at h
      · simp only [Option.some.injEq, Prod.mk.injEq] at h
        obtain ⟨rfl, rfl, -⟩ := h
        simpa using hx
      · cases h

/-- A trace made of calls that do not overlap. Scaffolding of the model, no counterpart in the source. -/
structure SeqTrace (tr : Trace V) (k : Nat) : Prop where
  small : ∀ (a : Nat) op, Event.invoke a op ∈ tr → a < k
  quiet : ∀ a, ¬ Pending tr a
  short : ∀ pre, pre <+: tr → ∀ a, Pending pre a → nRes pre ≤ born a pre + 1
  nopanic : ∀ b, Event.ret b .panicked ∉ tr

theorem SeqTrace.call {tr evs : Trace V} {k : Nat} (h : SeqTrace tr k) (hc : CallTrace k evs) :
    SeqTrace (tr ++ evs) (k + 1) := by
  obtain ⟨⟨op, e, rfl, hno⟩, hact, hone, hret, hnp⟩ := hc
  have hni : ¬ Invoked tr k := by
    rintro ⟨op', hm⟩
    exact absurd (h.small _ _ hm) (by omega)
  refine ⟨?_, ?_, ?_, fun b hb => (List.mem_append.1 hb).elim (h.nopanic b) (hnp b)⟩
  · intro a op' hm
    rcases List.mem_append.1 hm with hm | hm
    · have := h.small _ _ hm; omega
    · have hak : a = k := hact _ hm
      rw [hak]; exact Nat.lt_succ_self k
  · rintro a ⟨⟨op', hm⟩, hnr⟩
    rcases List.mem_append.1 hm with hm | hm
    · exact h.quiet a ⟨⟨_, hm⟩, fun hr => hnr (Returned.append.2 (.inl hr))⟩
    · have := hact _ hm
      simp only [Event.actor] at this
      subst this
      exact hnr (Returned.append.2 (.inr hret))
  · intro pre hp a ha
    rcases List.prefix_or_prefix_of_prefix hp (List.prefix_append tr (.invoke k op :: e)) with h1 | h1
    · exact h.short pre h1 a ha
    · obtain ⟨u, rfl⟩ := h1
      have hu : u <+: .invoke k op :: e := (List.prefix_append_right_inj tr).1 hp
      by_cases hak : a = k
      · subst hak
        cases u with
        | nil =>
          obtain ⟨op', hm⟩ := ha.1
          exact absurd ⟨op', by simpa using hm⟩ hni
        | cons x u =>
          obtain ⟨z, hz⟩ := hu
          simp only [List.cons_append, List.cons.injEq] at hz
          obtain ⟨rfl, rfl⟩ := hz
          have hb : born a (tr ++ .invoke a op :: u) = nRes tr := by
            rw [show tr ++ .invoke a op :: u = (tr ++ [.invoke a op]) ++ u by simp,
              born_append ⟨op, by simp⟩, born_invoke hni]
          rw [hb, nRes_append]
          have h1 : nRes (Event.invoke a op :: (u ++ z)) = nRes (Event.invoke a op :: u) + nRes z := by
            rw [show Event.invoke a op :: (u ++ z) = (Event.invoke a op :: u) ++ z by simp, nRes_append]
          omega
      · exfalso
        obtain ⟨⟨op', hm⟩, hnr⟩ := ha
        rcases List.mem_append.1 hm with hm | hm
        · exact h.quiet a ⟨⟨_, hm⟩, fun hr => hnr (Returned.append.2 (.inl hr))⟩
        · exact hak (hact _ (hu.subset hm))

theorem SeqTrace.noStall {tr : Trace V} {k : Nat} (hw : WellSized w cap) (h : SeqTrace tr k) :
    NoStall w cap tr := by
  intro pre hp a ha
  have := h.short pre hp a ha
  have := period_ge hw
  have := hw.1
  omega

theorem SeqTrace.runCalls {tr evs : Trace V} {s s' : State w V} {k H : Nat} {q : List V} {cs : List (Call V)}
    {os : List (Out V)} (hw : WellSized w cap) (hr : SeqRel w cap s H q k) (he : Exec w cap tr s)
    (ht : SeqTrace tr k) (h : Thingbuf.runCalls cap s k cs = some (s', evs, os)) :
    Exec w cap (tr ++ evs) s' ∧ SeqTrace (tr ++ evs) (k + cs.length) := by
  induction cs generalizing tr s H q k evs os with
  | nil =>
    simp only [Thingbuf.runCalls, Option.some.injEq, Prod.mk.injEq] at h
    obtain ⟨rfl, rfl, -⟩ := h
    simpa using ⟨he, ht⟩
  | cons c cs ih =>
    obtain ⟨s1, e1, H1, h1, h2, h3, h4, h5⟩ := hr.call hw c
    simp only [Thingbuf.runCalls, h1] at h
    split at h
    · cases h
    · rename_i s2 e2 os2 h6
      simp only [Option.some.injEq, Prod.mk.injEq] at h
      obtain ⟨rfl, rfl, -⟩ := h
      have := ih h2 (he.callStep h1) (ht.call h3) h6
      rw [← List.append_assoc]
      rw [List.length_cons, show k + (cs.length + 1) = k + 1 + cs.length by omega]
      exact this

theorem SeqTrace.nil : SeqTrace ([] : Trace V) 0 := by
  refine ⟨by simp, ?_, ?_, by simp⟩
  · rintro a ⟨⟨op, hm⟩, _⟩; simp at hm
  · rintro pre hp a ⟨⟨op, hm⟩, _⟩
    rw [List.prefix_nil.1 hp] at hm; simp at hm

/-- **C17**, supplement: every sequential use is an execution that meets the conditions of the other
theorems (`Run`), without any bound on its length: the position counter may wrap. -/
theorem C17_sequential_run (hw : WellSized w cap) (cs : List (Call V)) :
    ∃ s evs, runCalls cap (State.init w V) 0 cs = some (s, evs, (specRun cap [] cs).2) ∧
      Run w cap evs s ∧ ∀ a, ¬ Pending evs a := by
  obtain ⟨s', evs, H, h, hr, _⟩ := SeqRel.init.calls hw cs
  obtain ⟨h1, h2⟩ := SeqTrace.runCalls hw SeqRel.init .init .nil h
  simp only [List.nil_append] at h1 h2
  exact ⟨s', evs, h, ⟨hw, h1, h2.noStall hw⟩, h2.quiet⟩

/-! ### What happens when the position counter wraps -/

/-- `n` times: push, then pop. Scaffolding of the model, no counterpart in the source. -/
def pairs (v : V) : Nat → List (Call V)
  | 0 => []
  | n + 1 => .push v v 0 :: .pop v 0 :: pairs v n

theorem SeqRel.pairs {s : State w V} {H k : Nat} (hw : WellSized w cap) (hr : SeqRel w cap s H [] k)
    (v : V) (n : Nat) : ∃ s' evs os, Thingbuf.runCalls cap s k (Thingbuf.pairs v n) = some (s', evs, os) ∧
      SeqRel w cap s' (H + n) [] (k + 2 * n) ∧ nRes evs = n ∧ (Thingbuf.pairs v n).length = 2 * n := by
  induction n generalizing s H k with
  | zero => exact ⟨s, [], [], rfl, hr, rfl, rfl⟩
  | succ n ih =>
    obtain ⟨s1, acc, h1, h2, _⟩ := hr.push_ok hw hw.1 v v 0
    obtain ⟨s2, h3, h4⟩ := h2.pop_some hw v 0
    obtain ⟨s3, e3, os, h5, h6, h7, h8⟩ := ih h4
    refine ⟨s3, _, _, by simp only [Thingbuf.pairs, Thingbuf.runCalls, h1, h3, h5]; rfl, ?_, ?_, ?_⟩
    · rw [show H + (n + 1) = H + 1 + n by omega, show k + 2 * (n + 1) = k + 1 + 1 + 2 * n by omega]
      exact h6
    · simp only [nRes_append, h7]; simp [nRes, resOps]; omega
    · simp only [Thingbuf.pairs, List.length_cons, h8]; omega

/-- A sequential history that pushes and pops `period` elements, and what it leaves. -/
theorem wrapped (hw : WellSized w cap) (v : V) : ∃ (tr : Trace V) (s : State w V) (k : Nat),
    SeqRel w cap s (period w cap) [] k ∧ Exec w cap tr s ∧ SeqTrace tr k ∧ nRes tr = period w cap ∧
    ∀ i, i < cap → i ∈ createdSlots tr := by
  have hper := period_ge hw
  have hpos := hw.1
  obtain ⟨s1, e1, o1, h1, h2, h3, l1⟩ := (SeqRel.init (w := w) (cap := cap) (V := V)).pairs hw v cap
  obtain ⟨s2, e2, o2, h4, h5, h6, l2⟩ := h2.pairs hw v (period w cap - cap)
  obtain ⟨x1, x2⟩ := SeqTrace.runCalls hw SeqRel.init .init .nil h1
  obtain ⟨y1, y2⟩ := SeqTrace.runCalls hw h2 x1 (by rw [l1] at x2; exact x2) h4
  simp only [List.nil_append] at x1 x2 y1 y2
  have r1 : Run w cap e1 s1 := ⟨hw, x1, x2.noStall hw⟩
  have hc := r1.facts.created_iff x2.quiet (fun a ha => absurd ha (x2.nopanic a))
  refine ⟨_, _, _, ?_, y1, y2, by rw [nRes_append]; omega, fun i hi => ?_⟩
  · rw [l2]
    rwa [show 0 + cap + (period w cap - cap) = period w cap by omega] at h5
  · rw [createdSlots_append]; exact List.mem_append_left _ ((hc i).2 (by omega))

/-- **C08** is violated when the position counter has wrapped exactly to the start of its period: for
every well sized queue there is a sequential history (`period` times push and pop) after which
every slot holds an initialised element and dropping the queue drops none of them. -/
theorem C08_leak_after_wrap (hw : WellSized w cap) (v : V) : ∃ (tr : Trace V) (s : State w V),
    Run w cap tr s ∧ (∀ a, ¬ Pending tr a) ∧ NewElementNeverPanicked tr ∧ nRes tr = period w cap ∧
    (∀ i, i < cap → i ∈ createdSlots tr ∧ s.val i ≠ none) ∧ dropSlots cap s false = .dropped [] := by
  obtain ⟨tr, s, k, hr, he, ht, hn, hc⟩ := wrapped hw v
  have hR : Run w cap tr s := ⟨hw, he, ht.noStall hw⟩
  refine ⟨tr, s, hR, ht.quiet, fun a ha => absurd ha (ht.nopanic a), hn,
    fun i hi => ⟨hc i hi, (hR.val_created i).2 (hc i hi)⟩, ?_⟩
  have ht : s.tail = enc w cap (period w cap) := hr.tail
  have hg : ((Params.new w cap).idxGen s.tail).2 = 0#w := by
    rw [ht, gen_eq_zero hw, period, Nat.mul_div_cancel_left _ hw.1, Nat.mod_self]
  have hix : ((Params.new w cap).idxGen s.tail).1.toNat = 0 := by
    rw [ht, idx_enc hw, period, Nat.mul_mod_right]
  simp [dropSlots, hg, hix]

/-- The hypotheses of `C08_drop_exact_partial` and of `C08_leak_exact_after_wrap` are met on both sides of a wrap: there is a
history with any number `n` of pushes. -/
theorem any_number (hw : WellSized w cap) (v : V) (n : Nat) : ∃ (tr : Trace V) (s : State w V), Run w cap tr s ∧ (∀ a, ¬ Pending tr a) ∧
    NewElementNeverPanicked tr ∧ nRes tr = n := by
  obtain ⟨s1, e1, o1, h1, h2, h3, l1⟩ := (SeqRel.init (w := w) (cap := cap) (V := V)).pairs hw v n
  obtain ⟨x1, x2⟩ := SeqTrace.runCalls hw SeqRel.init .init .nil h1
  simp only [List.nil_append] at x1 x2
  exact ⟨e1, s1, ⟨hw, x1, x2.noStall hw⟩, x2.quiet, fun a ha => absurd ha (x2.nopanic a), h3⟩

/-- `C08_drop_exact_partial` after a wrap. -/
example : ∃ (tr : Trace Nat) (s : State 8 Nat), Run 8 3 tr s ∧ (∀ a, ¬ Pending tr a) ∧ NewElementNeverPanicked tr ∧
    period 8 3 < nRes tr ∧ 3 ≤ nRes tr % period 8 3 := by
  obtain ⟨tr, s, h1, h2, h3, h4⟩ := any_number (w := 8) (cap := 3) (by decide) 5 (period 8 3 + 4)
  exact ⟨tr, s, h1, h2, h3, by rw [h4]; decide, by rw [h4]; decide⟩

/-- `C08_leak_exact_after_wrap`: two of three slots are dropped. -/
example : ∃ (tr : Trace Nat) (s : State 8 Nat), Run 8 3 tr s ∧ (∀ a, ¬ Pending tr a) ∧ NewElementNeverPanicked tr ∧
    period 8 3 ≤ nRes tr ∧ nRes tr % period 8 3 = 2 := by
  obtain ⟨tr, s, h1, h2, h3, h4⟩ := any_number (w := 8) (cap := 3) (by decide) 5 (period 8 3 + 2)
  exact ⟨tr, s, h1, h2, h3, by rw [h4]; decide, by rw [h4]; decide⟩

/-- **C10**'s bound on creations does not survive the wrap either: for every well sized queue there is
a sequential history in which `new_element` is stored in a slot that already holds an element
(which is overwritten, so its destructor never runs). -/
theorem C10_create_again_after_wrap (hw : WellSized w cap) (v : V) : ∃ (pre post : Trace V) (s : State w V)
    (a : OpId), Run w cap (pre ++ .access a 0 (.create v) :: post) s ∧ 0 ∈ createdSlots pre := by
  have hpos := hw.1
  obtain ⟨tr, s, k, hr, he, ht, hn, hc⟩ := wrapped hw v
  obtain ⟨s2, acc, h4, h5, h6⟩ := hr.push_ok hw hpos v v 0
  obtain ⟨_, _, _, g1, _, g3, _⟩ := hr.call hw (.push v v 0)
  rw [h4, Option.some.injEq, Prod.mk.injEq, Prod.mk.injEq] at g1
  obtain ⟨rfl, rfl, -⟩ := g1
  have y2 := (ht.call g3).noStall hw
  have y1 := he.callStep h4
  have hz : (period w cap + 0) % cap = 0 := by simp [period]
  have hacc := h6 (by simp [period, Nat.mul_div_cancel_left _ hpos])
  subst hacc
  simp only [List.length_nil, hz] at y1 y2
  refine ⟨tr ++ [.invoke k .push, .reserve k 0], _, s2, k, ⟨hw, by simpa using y1, by simpa using y2⟩, ?_⟩
  rw [createdSlots_append]
  exact List.mem_append_left _ (hc 0 hpos)

end Thingbuf
