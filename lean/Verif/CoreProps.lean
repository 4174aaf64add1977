import Verif.TraceProps
/-
Property theorems about the ring buffer (`ThingBuf`, `StaticThingBuf` and the queue inside the
channels): C01-C07, C09-C14.  The vocabulary is that of `Verif/Spec.lean`; `Run` (in
`Verif/Core.lean`) says that `tr` is the trace of an execution of any number of
operations under any schedule.  "At some instant during the call" is "for some prefix of the trace".
-/
namespace Thingbuf

variable {w cap : Nat} {V : Type} {tr : Trace V} {s : State w V}

/-! ### Concrete schedules, used to show that the hypotheses are met -/

/-- `push_ref` by `a` with user code producing `v`, run alone, `Ref` still held. -/
def pushActs {V : Type} (a : OpId) (v : V) : List (Act V) := [.invoke a .push, .run a, .run a, .run a, .elem a v]
/-- `pop_ref` by `a`, run alone, `Ref` still held. -/
def popActs {V : Type} (a : OpId) : List (Act V) := [.invoke a .pop, .run a, .run a, .run a]

/-- Two pushes racing for the same slot, the loser publishes first; two pops; slot 0 is recycled;
`len`; a failed push; close; a push after close; draining; a pop that sees `Closed`. -/
def demoActs : List (Act Nat) :=
  [.invoke 0 .push, .invoke 1 .push, .run 0, .run 1, .run 0, .run 1, .run 0, .run 1, .elem 0 10,
   .run 1, .run 1, .elem 1 11, .write 1 12, .dropRef 1, .dropRef 0] ++
  popActs 2 ++ [.read 2, .write 2 77, .dropRef 2] ++ pushActs 3 13 ++ [.dropRef 3] ++
  [.invoke 4 .push, .run 4, .run 4, .run 4] ++ [.invoke 5 .len, .run 5, .run 5, .run 5] ++
  [.invoke 6 (.close false), .run 6, .invoke 7 .push, .run 7, .run 7] ++
  popActs 8 ++ [.dropRef 8] ++ popActs 9 ++ [.dropRef 9, .invoke 10 .pop, .run 10, .run 10, .run 10] ++
  [.invoke 11 (.close false), .run 11]

def demoTrace : Trace Nat :=
  [.invoke 0 .push, .invoke 1 .push, .reserve 0 0, .access 0 0 (.create 10), .ret 0 .pushed,
   .reserve 1 1, .access 1 1 (.create 11), .ret 1 .pushed, .access 1 1 (.write 12), .commit 1 1 (some 12),
   .commit 0 0 (some 10), .invoke 2 .pop, .dequeue 2 0 (some 10), .ret 2 .popped,
   .access 2 0 (.read (some 10)), .access 2 0 (.write 77), .release 2 0 (some 77),
   .invoke 3 .push, .reserve 3 0, .access 3 0 (.recycle (some 77) 13), .ret 3 .pushed,
   .commit 3 0 (some 13), .invoke 4 .push, .ret 4 .full, .invoke 5 .len, .ret 5 (.len 2),
   .invoke 6 (.close false), .close 6, .ret 6 (.closeRet true), .invoke 7 .push, .ret 7 .closed,
   .invoke 8 .pop, .dequeue 8 1 (some 12), .ret 8 .popped, .release 8 1 (some 12),
   .invoke 9 .pop, .dequeue 9 0 (some 13), .ret 9 .popped, .release 9 0 (some 13),
   .invoke 10 .pop, .ret 10 .closed, .invoke 11 (.close false), .close 11, .ret 11 (.closeRet false)]

/-- The demonstration run: capacity 2 on 8-bit words. -/
theorem demoRun : ∃ s, Run 8 2 demoTrace s :=
  Run.of_acts (by decide) demoActs demoTrace (by decide +kernel) (by decide +kernel)

/-! ### C01 -/

/-- **C01** FIFO, exactly once, no invention.  The values dequeued, in order, are the values
that were in the `Ref`s of the first `nDeq tr` reservations, in reservation order, when those `Ref`s
were dropped. -/
theorem C01_fifo (h : Run w cap tr s) :
    deqVals tr = ((resOps tr).take (nDeq tr)).map (sent tr) ∧ (∀ v ∈ deqVals tr, v ≠ none) :=
  h.facts.fifo

/-- **C01**, supplement: no operation reserves or dequeues twice; a `Ref` is dropped at most once; what
the `Ref` contains when it is dropped is what was last put there; and the drop comes before the dequeue. -/
theorem C01_fifo_once (h : Run w cap tr s) :
    (resOps tr).Nodup ∧ (deqOps tr).Nodup ∧
    (∀ a i v i' v', Event.commit a i v ∈ tr → Event.commit a i' v' ∈ tr → i = i' ∧ v = v') ∧
    (∀ pre a i v post, tr = pre ++ .commit a i v :: post → a ∈ resOps pre ∧ v = content a pre) ∧
    (∀ pre b i v post, tr = pre ++ .dequeue b i v :: post →
      ∃ a, (resOps pre)[nDeq pre]? = some a ∧ Event.commit a i v ∈ pre) :=
  h.facts.fifo_once

example : deqVals demoTrace = [some 10, some 12, some 13] ∧ resOps demoTrace = [0, 1, 3] ∧
    (resOps demoTrace).map (sent demoTrace) = [some 10, some 12, some 13] := by decide

/-! ### C02 -/

/-- **C02** Capacity bound, at every instant; and push `Ref`s that are alive are among the at most `cap`
reserved and not yet dequeued operations. -/
theorem C02_capacity (h : Run w cap tr s) {pre : Trace V} (hp : pre <+: tr) :
    nDeq pre ≤ nRes pre ∧ ((resOps pre).drop (nDeq pre)).length ≤ cap ∧
    ∀ a i, Event.reserve a i ∈ pre → ¬ Committed pre a → a ∈ (resOps pre).drop (nDeq pre) :=
  h.facts.capacity hp

example : (demoTrace.take 22) <+: demoTrace ∧ nRes (demoTrace.take 22) = 3 ∧
    nDeq (demoTrace.take 22) = 1 := ⟨List.take_prefix _ _, by decide, by decide⟩

/-! ### C03 -/

/-- **C03** `Full` is truthful: at the instant the call returns, exactly `cap` elements are reserved and
not dequeued. -/
theorem C03_full_truthful (h : Run w cap tr s) {pre post : Trace V} {a : OpId}
    (htr : tr = pre ++ .ret a .full :: post) :
    Pending pre a ∧ Event.invoke a .push ∈ pre ∧ nRes pre = nDeq pre + cap :=
  h.facts.full_truthful htr

example : ∃ pre post, demoTrace = pre ++ .ret 4 .full :: post :=
  ⟨demoTrace.take 23, demoTrace.drop 24, by decide⟩

/-! ### C04 -/

/-- A queue in which a slot is claimed later is not closed yet. -/
theorem Run.open_before (h : Run w cap tr s) {mid : Trace V} (hm : mid <+: tr) (hlt : nRes mid < nRes tr) :
    ¬ Closed mid := by
  obtain ⟨u, rfl⟩ := hm
  rw [nRes_append] at hlt
  intro hc
  obtain ⟨a, ha⟩ : ∃ a, a ∈ resOps u := by
    cases hu : resOps u with
    | nil => simp [nRes, hu] at hlt
    | cons a l => exact ⟨a, by simp⟩
  obtain ⟨e, he, hea⟩ := List.mem_filterMap.1 ha
  cases e <;> simp at hea
  rename_i a' i
  subst hea
  obtain ⟨u1, u2, rfl⟩ := List.append_of_mem he
  refine (h.evOk (pre := mid ++ u1) (e := .reserve a' i) (post := u2) (by simp)).2.1 ?_
  obtain ⟨b, hb⟩ := hc
  exact ⟨b, List.mem_append_left _ hb⟩

/-- **C04** `None`/`Empty` is truthful: at some instant during the call the queue was open and had no element, or
its oldest element was still being written. -/
theorem C04_empty_truthful (h : Run w cap tr s) {pre post : Trace V} {a : OpId}
    (htr : tr = pre ++ .ret a .empty :: post) :
    Event.invoke a .pop ∈ pre ∧
    ∃ mid, mid <+: pre ∧ Pending mid a ∧ ((IsEmpty mid ∧ ¬ Closed mid) ∨ OldestUncommitted mid) := by
  obtain ⟨h1, h2, _, _, h3, h4⟩ := h.evOk htr
  obtain ⟨mid, h4, h5, h6⟩ := h4 trivial
  refine ⟨h3, mid, h4, ⟨h5, ?_⟩, h6.imp_left ?_⟩
  · rintro ⟨r, hr⟩
    exact h2 ⟨r, h4.subset hr⟩
  · rintro ⟨h7, h8 | h8⟩
    · exact ⟨h7, h8⟩
    · refine ⟨h7, h.open_before (h4.trans ⟨_, htr.symm⟩) (Nat.lt_of_lt_of_le h8 ?_)⟩
      rw [htr, nRes_append]
      omega

/-- Push 0 reserves and keeps its `Ref`; push 1 reserves and completes; pop 2 spins
until it gives up. -/
def stalledHeadActs : List (Act Nat) :=
  pushActs 0 10 ++ pushActs 1 11 ++ [.dropRef 1, .invoke 2 .pop] ++ List.replicate 12 (.run 2)

/-- The case with an uncommitted oldest element does happen: `pop` can return `None` although the push
of a *later* element has completed (so the stronger reading "None means no completed element" is
false). -/
theorem C04_empty_despite_completed_push : ∃ (pre post : Trace Nat) (s : State 8 Nat),
    Run 8 2 (pre ++ .invoke 2 .pop :: post) s ∧ Committed pre 1 ∧ Event.ret 2 .empty ∈ post ∧
    nDeq (pre ++ .invoke 2 .pop :: post) = 0 := by
  obtain ⟨s, hs⟩ := Run.of_acts (w := 8) (cap := 2) (V := Nat) (by decide) stalledHeadActs
    ([.invoke 0 .push, .reserve 0 0, .access 0 0 (.create 10), .ret 0 .pushed,
     .invoke 1 .push, .reserve 1 1, .access 1 1 (.create 11), .ret 1 .pushed, .commit 1 1 (some 11)] ++
     .invoke 2 .pop :: [.ret 2 .empty]) (by decide +kernel) (by decide +kernel)
  exact ⟨_, _, s, hs, ⟨1, some 11, by simp⟩, by simp, by decide⟩

/-! ### C05 -/

/-- **C05** Exclusive access.  At every instant at most one operation holds a given slot, and every
access to an element (initialisation, recycling, read or write through a `Ref`) is made by
the operation that holds its slot at that instant; so is the drop of a `Ref`. -/
theorem C05_exclusive (h : Run w cap tr s) :
    (∀ pre a b i, pre <+: tr → Holds pre a i → Holds pre b i → a = b) ∧
    (∀ pre a i k post, tr = pre ++ .access a i k :: post → Holds pre a i) ∧
    (∀ pre a i v post, tr = pre ++ .commit a i v :: post → Holds pre a i) ∧
    (∀ pre a i v post, tr = pre ++ .release a i v :: post → Holds pre a i) :=
  h.facts.exclusive

/-- **C05**, supplement: a slot is not claimed while another operation holds it. -/
theorem C05_claim_exclusive (h : Run w cap tr s) {pre post : Trace V} {a : OpId} {i : Nat}
    {e : Event V} (htr : tr = pre ++ e :: post)
    (he : e = .reserve a i ∨ ∃ v, e = .dequeue a i v) (b : OpId) : ¬ Holds pre b i :=
  h.facts.claim_exclusive htr he b

/-- Both kinds of `Ref` alive at once. -/
example : Holds (demoTrace.take 9) 0 0 ∧ Holds (demoTrace.take 9) 1 1 := by
  refine ⟨⟨.inl (by decide), ?_, ?_⟩, ⟨.inl (by decide), ?_, ?_⟩⟩ <;>
    simp [Committed, Released, demoTrace]

/-! ### C06, C11 -/

/-- **C06** Every unchecked slot access is in bounds. -/
theorem C06_in_bounds (h : Run w cap tr s) (a : OpId) : Event.ret a (.crash .oob) ∉ tr :=
  h.facts.in_bounds a

/-- **C06**, for the slots named by the events. -/
theorem C06_slots_in_bounds (h : Run w cap tr s) :
    (∀ a i, Event.reserve a i ∈ tr → i < cap) ∧ (∀ a i v, Event.dequeue a i v ∈ tr → i < cap) ∧
    (∀ a i k, Event.access a i k ∈ tr → i < cap) :=
  h.facts.slots_in_bounds

/-- **C06**, side condition: on a 64-bit machine every slot array that can be allocated (at
least 8 bytes per slot, at most `isize::MAX` bytes) has a well sized capacity. -/
theorem C06_sized_64 (cap : Nat) (h0 : 0 < cap) (h : cap * 8 ≤ 2 ^ 63 - 1) : WellSized 64 cap :=
  wellSized_of_alloc64 h0 h

/-- **C06**, side condition on a 32-bit machine (at least 4 bytes per slot). -/
theorem C06_sized_32 (cap : Nat) (h0 : 0 < cap) (h : cap * 4 ≤ 2 ^ 31 - 1) : WellSized 32 cap :=
  wellSized_of_alloc32 h0 h

/-- **C11** No arithmetic overflow, and `push_ref` never sees `Closed` unless the queue was closed
(nobody closes a `ThingBuf`, so its `unreachable!()` is unreachable). -/
theorem C11_no_internal_panic (h : Run w cap tr s) (a : OpId) :
    Event.ret a (.crash .overflow) ∉ tr ∧
    ((∀ b p, Event.invoke b (.close p) ∉ tr) → Event.ret a .closed ∉ tr) :=
  h.facts.no_internal_panic a

example : ∃ s, Run 8 2 demoTrace s ∧ 30 < demoTrace.length := by
  obtain ⟨s, hs⟩ := demoRun
  exact ⟨s, hs, by decide⟩

/-! ### C07 -/

/-- **C07** No uninitialised element is exposed: whatever is dequeued, recycled, read through a
`Ref`, or left behind by a dropped `Ref`, is initialised. -/
theorem C07_initialised (h : Run w cap tr s) :
    (∀ a i v, Event.dequeue a i v ∈ tr → v ≠ none) ∧
    (∀ a i o n, Event.access a i (.recycle o n) ∈ tr → o ≠ none) ∧
    (∀ a i o, Event.access a i (.recyclePanic o) ∈ tr → o ≠ none) ∧
    (∀ a i v, Event.access a i (.read v) ∈ tr → v ≠ none) ∧
    (∀ a i v, Event.commit a i v ∈ tr → v ≠ none) ∧
    (∀ a i v, Event.release a i v ∈ tr → v ≠ none) :=
  h.facts.initialised

/-- **C07**, supplement: the value seen through a `Ref` is the one last put there. -/
theorem C07_reads_last_write (h : Run w cap tr s) {pre post : Trace V} {a : OpId} {i : Nat}
    {v : Option V} (htr : tr = pre ++ .access a i (.read v) :: post) : v = content a pre :=
  h.facts.reads_last_write htr

example : Event.access 2 0 (.read (some 10)) ∈ demoTrace ∧
    Event.access 3 0 (.recycle (some 77) 13) ∈ demoTrace := by decide

/-! ### C09 -/

/-- `remaining` (/repo/src/thingbuf.rs line 242): `capacity() - len()`; `none` is the underflow
panic. -/
def remaining (cap len : Nat) : Option Nat := if len ≤ cap then some (cap - len) else none

/-- `is_empty` (/repo/src/thingbuf.rs line 291). -/
def isEmptyOf (len : Nat) : Bool := len == 0

/-- **C09** On a queue that nobody closes, `len()` is the exact number of reserved and not dequeued
elements at some instant during the call, `remaining()` is the exact number of free
places at that instant and does not underflow, and `is_empty()` is true exactly if
the queue had no element at that instant. -/
theorem C09_len (h : Run w cap tr s) (hc : ¬ Closed tr) {pre post : Trace V} {a : OpId} {n : Nat}
    (htr : tr = pre ++ .ret a (.len n) :: post) :
    n ≤ cap ∧ ∃ mid, mid <+: pre ∧ Pending mid a ∧ nRes mid = nDeq mid + n ∧
      remaining cap n = some (cap - ((resOps mid).drop (nDeq mid)).length) ∧
      (isEmptyOf n = true ↔ IsEmpty mid) := by
  obtain ⟨h1, h2, _, _, h3, h4, h5⟩ := h.evOk htr
  obtain ⟨mid, h5, h6, h7⟩ := h5 trivial
  have hcp : ¬ Closed pre := fun ⟨b, hb⟩ => hc ⟨b, by rw [htr]; exact List.mem_append_left _ hb⟩
  have h7 := h7 hcp
  refine ⟨h4, mid, h5, ⟨h6, ?_⟩, h7, ?_, ?_⟩
  · rintro ⟨r, hr⟩
    exact h2 ⟨r, h5.subset hr⟩
  · rw [remaining, if_pos h4, List.length_drop]
    congr 1
    have : nRes mid = (resOps mid).length := rfl
    omega
  · unfold isEmptyOf IsEmpty
    simp; omega

example : ∃ (pre post : Trace Nat) (s : State 8 Nat), Run 8 2 (pre ++ .ret 5 (.len 2) :: post) s ∧
    ¬ Closed (pre ++ .ret 5 (.len 2) :: post) := by
  obtain ⟨s, hs⟩ := Run.of_acts (w := 8) (cap := 2) (V := Nat) (by decide) (demoActs.take 36)
    (demoTrace.take 25 ++ .ret 5 (.len 2) :: []) (by decide +kernel) (by decide +kernel)
  exact ⟨_, _, s, hs, by simp [Closed, demoTrace]⟩

/-! ### C10 -/

/-- A committed push has returned. -/
theorem Run.committed_returned (h : Run w cap tr s) {pre : Trace V} (hp : pre <+: tr) {a : OpId}
    (hc : Committed pre a) : Returned pre a :=
  h.facts.committed_returned hp hc

/-- A dequeued position was committed. -/
theorem Run.dequeued_committed (h : Run w cap tr s) {pre : Trace V} (hp : pre <+: tr) {a : OpId} {p : Nat}
    (hr : (resOps pre)[p]? = some a) (hd : p < nDeq pre) : Committed pre a :=
  h.facts.dequeued_committed hp hr hd

/-- **C10** Recycling discipline.  `recycle` is called on exactly the value that the previous
consumer of the slot left there; a push that returns a `Ref` made exactly one call of
`new_element` or `recycle`, before it returned, and no push makes more than one. -/
theorem C10_recycle (h : Run w cap tr s) :
    (∀ pre a i o n post, tr = pre ++ .access a i (.recycle o n) :: post →
      o = lastLeft i pre ∧ o ≠ none ∧ ¬ Returned pre a) ∧
    (∀ pre a i o post, tr = pre ++ .access a i (.recyclePanic o) :: post →
      o = lastLeft i pre ∧ o ≠ none ∧ ¬ Returned pre a) ∧
    (∀ a, (inits a tr).length ≤ 1) ∧
    (∀ a, Event.ret a .pushed ∈ tr → (inits a tr).length = 1) :=
  h.facts.recycle

/-- **C10**: until the position counter has wrapped once (`period` reservations), an element is created
only in a slot that was never accessed before, so at most `cap` elements are created in total. -/
theorem C10_create (h : Run w cap tr s) (hwrap : nRes tr ≤ period w cap) :
    (∀ pre a i v post, tr = pre ++ .access a i (.create v) :: post →
      ∀ b k, Event.access b i k ∉ pre) ∧
    (createdSlots tr).length ≤ cap :=
  h.facts.create hwrap

example : nRes demoTrace ≤ period 8 2 ∧ createdSlots demoTrace = [0, 1] ∧
    inits 3 demoTrace = [.recycle (some 77) 13] := by decide

/-! ### C12 -/

/-- **C12** Close is final: no reservation after it; every push that starts after it and returns,
returns `Closed`; and exactly one closer is told that it closed the queue. -/
theorem C12_close_final (h : Run w cap tr s) :
    (∀ pre a i post, tr = pre ++ .reserve a i :: post → ¬ Closed pre) ∧
    (∀ pre a post r, tr = pre ++ .invoke a .push :: post → Closed pre → Event.ret a r ∈ tr →
      r = .closed) ∧
    (Closed tr → ∃ a, Event.ret a (.closeRet true) ∈ tr ∧
      ∀ b, Event.ret b (.closeRet true) ∈ tr → b = a) := by
  refine ⟨fun pre a i post htr => (h.evOk htr).2.1, ?_, ?_⟩
  · intro pre a post r htr hcl hr
    have hinv : Event.invoke a .push ∈ tr := by rw [htr]; simp
    have hni := (h.evOk htr).1
    have hafter : ∀ x, x <+: tr → Invoked x a → Closed x := by
      intro x hx hix
      rcases List.prefix_or_prefix_of_prefix hx (⟨_, htr.symm⟩ : pre <+: tr) with hp | hp
      · obtain ⟨op, hm⟩ := hix
        exact absurd ⟨op, hp.subset hm⟩ hni
      · obtain ⟨b, hb⟩ := hcl
        exact ⟨b, hp.subset hb⟩
    have hnores : ∀ x y, tr = x ++ y → a ∈ resOps x → False := by
      intro x y hxy ha
      obtain ⟨i, hm⟩ := mem_resOps.1 ha
      obtain ⟨u, v, rfl⟩ := mem_split hm
      have he := h.evOk (pre := u) (e := .reserve a i) (post := v ++ y) (by rw [hxy]; simp)
      exact he.2.1 (hafter u ⟨.reserve a i :: (v ++ y), by rw [hxy]; simp⟩ ⟨_, he.1.inv⟩)
    obtain ⟨x, y, hxy⟩ := mem_split hr
    have he := h.evOk hxy
    have hpx : x <+: tr := ⟨_, hxy.symm⟩
    have hop : ∀ op, Event.invoke a op ∈ x → op = .push := fun op hm =>
      h.invoke_unique (hpx.subset hm) hinv
    cases r with
    | closed => rfl
    | pushed => exact (hnores x _ hxy he.2.2.1).elim
    | panicked => exact (hnores x _ hxy he.2.2.1).elim
    | popped => exact absurd (hop _ he.2.2.2) (by simp)
    | full =>
      obtain ⟨_, _, _, _, _, _, hz⟩ := he
      obtain ⟨z, hz, hiz, hcz⟩ := hz trivial
      exact absurd (hafter z (hz.trans hpx) hiz) hcz
    | empty => exact absurd (hop _ he.2.2.2.2.1) (by simp)
    | len n => exact absurd (hop _ he.2.2.2.2.1) (by simp)
    | closeRet b =>
      rcases he.2.2 with ⟨hm, _⟩ | ⟨hm, _⟩ <;> exact absurd (hop _ hm) (by simp)
    | crash c => exact he.2.2.2.2.elim
  · intro hcl
    obtain ⟨a, ha⟩ := h.invY.closed hcl
    refine ⟨a, ha, fun b hb => ?_⟩
    -- whichever of the two returns is later would have seen the other one's close
    have later : ∀ c d (x y z : Trace V), tr = x ++ .ret c (.closeRet true) :: y →
        y = z ++ .ret d (.closeRet true) :: (y.drop (z.length + 1)) → False := by
      intro c d x y z hxy hyz
      have hc := h.evOk hxy
      have hd := h.evOk (pre := x ++ .ret c (.closeRet true) :: z) (e := .ret d (.closeRet true))
        (post := y.drop (z.length + 1)) (by rw [hxy, List.append_assoc, List.cons_append, ← hyz])
      obtain ⟨_, _, ⟨_, hf⟩ | ⟨_, x0, hx0, hx1⟩⟩ := hc
      · cases hf
      obtain ⟨_, _, ⟨_, hf⟩ | ⟨_, y0, hy0, hy1⟩⟩ := hd
      · cases hf
      refine (hy1.1 rfl) ⟨c, ?_⟩
      have hl : Event.close c ∈ x := by rw [hx0]; simp
      have hne : z ≠ [] := by
        rintro rfl
        have := congrArg List.getLast? hy0
        simp at this
      rw [← List.dropLast_concat_getLast hne, ← List.cons_append, ← List.append_assoc] at hy0
      have := (List.append_inj' hy0 rfl).1
      rw [← this]
      exact List.mem_append_left _ hl
    obtain ⟨x, y, hxy⟩ := mem_split ha
    rw [hxy] at hb
    rcases List.mem_append.1 hb with hb | hb
    · obtain ⟨x1, x2, rfl⟩ := mem_split hb
      exact (later b a x1 (x2 ++ .ret a (.closeRet true) :: y) x2 (by rw [hxy]; simp)
        (by rw [List.drop_append, List.drop_of_length_le (by omega)]; simp)).elim
    · rcases List.mem_cons.1 hb with hb | hb
      · injection hb
      · obtain ⟨y1, y2, rfl⟩ := mem_split hb
        exact (later a b x _ y1 hxy
          (by rw [List.drop_append, List.drop_of_length_le (by omega)]; simp)).elim

example : Event.ret 6 (.closeRet true) ∈ demoTrace ∧ Event.ret 11 (.closeRet false) ∈ demoTrace ∧
    Event.ret 7 .closed ∈ demoTrace := by decide

/-! ### C13 -/

/-- **C13** A pop returns `Closed` only if the queue is closed and every element ever reserved has been
dequeued. -/
theorem C13_drained_before_closed (h : Run w cap tr s) {pre post : Trace V} {a : OpId}
    (htr : tr = pre ++ .ret a .closed :: post) (hpop : Event.invoke a .pop ∈ pre) :
    Closed pre ∧ nDeq pre = nRes tr :=
  h.facts.drained_before_closed htr hpop

example : Event.ret 10 .closed ∈ demoTrace ∧ Event.invoke 10 .pop ∈ demoTrace := by decide

/-! ### C14 -/

/-- **C14** Real-time order of producers: if push `a` returned before push `b` was called, and both
reserved, then `a` is before `b` in reservation order (which is dequeue order, C01). -/
theorem C14_producer_order (h : Run w cap tr s) {pre post : Trace V} {a b : OpId} {op : Op} {p q : Nat}
    (htr : tr = pre ++ .invoke b op :: post) (hret : Returned pre a)
    (ha : (resOps tr)[p]? = some a) (hb : (resOps tr)[q]? = some b) : p < q :=
  h.facts.producer_order htr hret ha hb

example : ∃ pre post, demoTrace = pre ++ .invoke 3 .push :: post ∧ Event.ret 1 .pushed ∈ pre :=
  ⟨demoTrace.take 17, demoTrace.drop 18, by decide, by decide⟩

end Thingbuf
