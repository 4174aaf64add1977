import Verif.RelAcqKnowStep
import Verif.TraceProps
/-
C18: the ring buffer under the memory orderings written in the source.

`RExec Orders.source w cap tr s` (`Verif/RelAcq.lean`): `tr` is the trace of an execution of
any number of operations on a release/acquire machine, in which plain atomic loads may return stale values,
and so may reads of the elements, unless something that happened before forbids it.  Each event of `tr`
carries the positions of the events that happened before it.  The vocabulary is that of
`Verif/Spec.lean` and `Verif/RelAcqSpec.lean`.
-/
namespace Thingbuf.RA

variable {w cap : Nat} {V : Type} {o : Orders} {tr : List (REv V)} {s : RState w V}

theorem source_synchronised : Synchronised Orders.source := ⟨rfl, rfl, rfl⟩

theorem runRActs_exec {acts : List (RAct V)} : ∀ {t t' : List (REv V)} {s s' : RState w V},
    RExec o w cap t s → runRActs o cap s acts = some (s', t') →
    nRes (evsOf (t ++ t')) + 2 * cap < period w cap → RExec o w cap (t ++ t') s' := by
  induction acts with
  | nil =>
    intro t t' s s' h hr _
    cases hr
    rwa [List.append_nil]
  | cons act acts ih =>
    intro t t' s s' h hr hf
    simp only [runRActs] at hr
    split at hr
    · cases hr
    · rename_i s1 e1 h1
      split at hr
      · cases hr
      · rename_i s2 e2 h2
        cases hr
        rw [← List.append_assoc] at hf ⊢
        refine ih (RExec.step h h1 ?_) h2 hf
        intro a _
        have : nRes (evsOf (t ++ e1)) ≤ nRes (evsOf ((t ++ e1) ++ e2)) := by
          rw [evsOf_append (t ++ e1) e2, nRes_append]; omega
        omega

/-- A concrete run in which fewer places are reserved than a period has. -/
theorem RExec.of_acts (acts : List (RAct V)) (t : List (REv V))
    (h : (runRActs o cap (RState.init w V) acts).map Prod.snd = some t)
    (hf : nRes (evsOf t) + 2 * cap < period w cap) : ∃ s, RExec o w cap t s := by
  obtain ⟨⟨s, t'⟩, hr, rfl⟩ := Option.map_eq_some_iff.1 h
  exact ⟨s, by simpa using runRActs_exec (t := []) .init hr (by simpa using hf)⟩

/-! ### Concrete schedules -/

/-- `push_ref` by `a` into slot 0 of a queue of capacity 1.  `t`, `sl`: the messages of `tail` and of the
slot that are read; `k`: the write to the element that is seen. -/
def rPush (a t sl k : Nat) (v : Nat) : List (RAct Nat) :=
  [.invoke a .push, .run a t 0, .run a sl 0, .run a t (t + 1), .elem a v k]

/-- `pop_ref` by `a`. -/
def rPop (a h sl : Nat) : List (RAct Nat) :=
  [.invoke a .pop, .run a h 0, .run a sl 0, .run a h (h + 1)]

/-- Two threads on a queue of capacity 1, with no other synchronisation: push, pop, push, pop.  The second
push first reads a stale `tail`, and the second pop a stale `head`. -/
def demoActs : List (RAct Nat) :=
  rPush 0 0 0 0 10 ++ [.write 0 11, .dropRef 0 1] ++ rPop 1 0 1 ++ [.read 1 2, .write 1 77, .dropRef 1 2] ++
  [.invoke 2 .push, .run 2 0 0, .run 2 2 0, .run 2 1 0] ++ [.run 2 2 0, .run 2 1 2, .elem 2 12 3, .dropRef 2 3] ++
  [.invoke 3 .pop, .run 3 0 0, .run 3 3 0, .run 3 1 0] ++ [.run 3 3 0, .run 3 1 2, .read 3 4, .dropRef 3 4]


/-- The events of the run. -/
def demoEvs : Trace Nat :=
  [.invoke 0 .push, .reserve 0 0, .access 0 0 (.create 10), .ret 0 .pushed, .access 0 0 (.write 11),
   .commit 0 0 (some 11), .invoke 1 .pop, .dequeue 1 0 (some 11), .ret 1 .popped,
   .access 1 0 (.read (some 11)), .access 1 0 (.write 77), .release 1 0 (some 77),
   .invoke 2 .push, .reserve 2 0, .access 2 0 (.recycle (some 77) 12), .ret 2 .pushed, .commit 2 0 (some 12),
   .invoke 3 .pop, .dequeue 3 0 (some 12), .ret 3 .popped, .access 3 0 (.read (some 12)),
   .release 3 0 (some 12)]

def demoTr : List (REv Nat) :=
  ((runRActs Orders.source 1 (RState.init 8 Nat) demoActs).map Prod.snd).getD []

theorem demoTr_evs : evsOf demoTr = demoEvs := by decide +kernel

/-- An execution of the code with the orderings written in the source. -/
structure RRun (w cap : Nat) {V : Type} (tr : List (REv V)) (s : RState w V) : Prop where
  sized : WellSized w cap
  exec : RExec Orders.source w cap tr s

theorem demoRRun : ∃ s, RRun 8 1 demoTr s := by
  obtain ⟨s, hs⟩ := RExec.of_acts (o := Orders.source) (w := 8) (cap := 1) demoActs demoTr
    (by decide +kernel) (by decide +kernel)
  exact ⟨s, by decide, hs⟩

theorem RRun.inv (h : RRun w cap tr s) : RInv w cap tr s := h.exec.inv h.sized source_synchronised

theorem RRun.facts (h : RRun w cap tr s) : Facts False w cap (evsOf tr) :=
  ⟨h.sized, h.inv.base.evs, h.inv.base.y⟩

/-! ### What "happens before" is -/

/-- "Happens before" is a strict partial order, compatible with the order of the trace, and the events of one
operation are ordered by it.  (For any memory orderings.) -/
theorem C18_hb_order (h : RExec o w cap tr s) :
    (∀ p q, HB tr p q → p < q ∧ q < tr.length) ∧
    (∀ p q r, HB tr p q → HB tr q r → HB tr p r) ∧
    (∀ p q e f, p < q → AtX tr p e → AtX tr q f → e.op = f.op → HB tr p q) := by
  have hi := h.hbInv
  refine ⟨?_, ?_, ?_⟩
  · rintro p q ⟨e, he, hp⟩
    exact ⟨(hi.ord q e he p hp).1, lt_of_getElem?_some he⟩
  · rintro p q r ⟨e, he, hp⟩ ⟨f, hf, hq⟩
    exact ⟨f, hf, (hi.ord r f hf q hq).2 e he p hp⟩
  · intro p q e f hpq hp hq heq
    simp only [AtX, List.getElem?_map] at hp hq
    obtain ⟨e', he', rfl⟩ := Option.map_eq_some_iff.1 hp
    obtain ⟨f', hf', rfl⟩ := Option.map_eq_some_iff.1 hq
    exact ⟨f', hf', hi.own p q e' f' hpq he' hf' heq⟩

/-- Not everything is ordered: the call of the pop is not ordered with what the producer did before. -/
example : ∃ p q e f, p < q ∧ At demoTr p e ∧ At demoTr q f ∧ ¬ HB demoTr p q := by
  refine ⟨5, 6, .commit 0 0 (some 11), .invoke 1 .pop, by decide, by decide +kernel, by decide +kernel, ?_⟩
  rintro ⟨e, he, hp⟩
  rw [show demoTr[6]? = some (.core (.invoke 1 .pop), []) by decide +kernel] at he
  cases he
  simp at hp

/-! ### No data races -/

/-- Which orderings matter: with any others elsewhere, there are no data races on the elements if the
loads of the slot state acquire and the store by which a `Ref` is dropped releases. -/
theorem C18_race_free_orders (hw : WellSized w cap) (ho : Synchronised o) (h : RExec o w cap tr s)
    {p q i : Nat} {e f : Event V} (hpq : p < q) (hp : At tr p e) (hq : At tr q f)
    (he : touched e = some i) (hf : touched f = some i) : HB tr p q := by
  have hi := h.inv hw ho
  simp only [AtX, List.getElem?_map] at hp hq
  obtain ⟨e', he', h1⟩ := Option.map_eq_some_iff.1 hp
  obtain ⟨f', hf', h2⟩ := Option.map_eq_some_iff.1 hq
  exact ⟨f', hf', hi.race p q i f' hpq ⟨e', he', by rw [h1]; exact he⟩ hf' (by rw [h2]; exact hf)⟩

/-- **C18** With the orderings written in the source, any two events that concern the same slot (claims, accesses
to the element, drops of the `Ref`s) are ordered by "happens before": there are no data races. -/
theorem C18_race_free (h : RRun w cap tr s) {p q i : Nat} {e f : Event V} (hpq : p < q)
    (hp : At tr p e) (hq : At tr q f) (he : touched e = some i) (hf : touched f = some i) : HB tr p q :=
  C18_race_free_orders h.sized source_synchronised h.exec hpq hp hq he hf

/-- **C18** for the accesses to the elements alone: each happens before the next, whoever makes them. -/
theorem C18_accesses_ordered (h : RRun w cap tr s) {p q i : Nat} {a b : OpId} {x y : Access V} (hpq : p < q)
    (hp : At tr p (.access a i x)) (hq : At tr q (.access b i y)) : HB tr p q :=
  C18_race_free h hpq hp hq rfl rfl

example : At demoTr 4 (.access 0 0 (.write 11)) ∧ At demoTr 9 (.access 1 0 (.read (some 11))) ∧
    At demoTr 14 (.access 2 0 (.recycle (some 77) 12)) := by
  refine ⟨?_, ?_, ?_⟩ <;> decide +kernel

/-- **C18** Publication: the drop of the `Ref` of a push, and whatever happened before it, happens before the
dequeue of that element and whatever that pop does later. -/
theorem C18_publication (h : RRun w cap tr s) {a b : OpId} {k n q m i j : Nat} {v x : Option V} {f : Event V}
    (ha : (resOps (evsOf tr))[k]? = some a) (hb : (deqOps (evsOf tr))[k]? = some b)
    (hn : At tr n (.commit a i v)) (hq : At tr q (.dequeue b j x))
    (hm : At tr m f) (hqm : q ≤ m) (hop : opOf f = b) :
    i = j ∧ v = x ∧ HB tr n m ∧ ∀ r, HB tr r n → HB tr r m := by
  have hf := h.facts
  obtain ⟨h1, h2, h3⟩ := C18_hb_order h.exec
  -- the element dequeued is that of `a`
  have hsplit := hq.split
  obtain ⟨a', ha', hc⟩ := hf.fifo_once.2.2.2.2 _ _ _ _ _ hsplit
  have hkq : nDeq (evsOf (tr.take q)) = k := by
    have h0 : (deqOps (evsOf tr))[nDeq (evsOf (tr.take q))]? = some b := by
      rw [hsplit, deqOps_append, nDeq, List.getElem?_append_right (Nat.le_refl _)]
      simp [deqOps]
    exact (List.getElem?_inj (lt_of_getElem?_some h0) hf.nodup_deq).1 (h0.trans hb.symm)
  have haa : a' = a := by
    have h0 := getElem?_append_of_some (l' := resOps (Event.dequeue b j x :: evsOf (tr.drop (q + 1)))) ha'
    rw [← resOps_append, ← hsplit, hkq, ha] at h0
    exact (Option.some.inj h0).symm
  subst haa
  obtain ⟨z, hzl, hz'⟩ := mem_take hc
  obtain ⟨rfl, rfl⟩ := hf.commit_unique hn.mem hz'.mem
  -- the commit is unique
  have hnz : n = z := by
    have hno : ∀ y y' : Nat, y < y' → At tr y (.commit a' i v) → At tr y' (.commit a' i v) → False := by
      intro y y' hlt hy hy'
      obtain ⟨⟨p, -, hp⟩, -⟩ := hf.evOk hy'.split
      exact hp.ncom ⟨i, v, hy.mem_take hlt⟩
    rcases Nat.lt_trichotomy n z with h | h | h
    · exact (hno _ _ h hn hz').elim
    · exact h
    · exact (hno _ _ h hz' hn).elim
  subst hnz
  have hnq : HB tr n q := C18_race_free h (by omega) hn hq rfl rfl
  have hnm : HB tr n m := by
    rcases Nat.eq_or_lt_of_le hqm with h | h
    · exact h ▸ hnq
    · exact h2 _ _ _ hnq (h3 q m _ _ h hq hm (by exact hop.symm))
  exact ⟨rfl, rfl, hnm, fun r hr => h2 _ _ _ hr hnm⟩

example : (resOps (evsOf demoTr))[1]? = some 2 ∧ (deqOps (evsOf demoTr))[1]? = some 3 ∧
    At demoTr 16 (.commit 2 0 (some 12)) ∧ At demoTr 18 (.dequeue 3 0 (some 12)) ∧
    At demoTr 20 (.access 3 0 (.read (some 12))) := by
  refine ⟨?_, ?_, ?_, ?_, ?_⟩ <;> decide +kernel

/-- **C18** Reads of the elements, which are not atomic, return what was last written, and nothing
uninitialised is ever read, although the machine would let them return older values where there is
no synchronisation. -/
theorem C18_reads_last_write (h : RRun w cap tr s) :
    (∀ pre a i v post, evsOf tr = pre ++ .access a i (.read v) :: post → v = content a pre ∧ v ≠ none) ∧
    (∀ pre a i v x post, evsOf tr = pre ++ .access a i (.recycle v x) :: post → v = lastLeft i pre ∧ v ≠ none) ∧
    (∀ pre a i v post, evsOf tr = pre ++ .access a i (.recyclePanic v) :: post →
      v = lastLeft i pre ∧ v ≠ none) := by
  obtain ⟨h1, h2, -⟩ := h.facts.recycle
  refine ⟨fun pre a i v post htr => ⟨h.facts.reads_last_write htr, ?_⟩, ?_, ?_⟩
  · exact h.facts.initialised.2.2.2.1 a i v (by rw [htr]; simp)
  · exact fun pre a i v x post htr => ⟨(h1 _ _ _ _ _ _ htr).1, (h1 _ _ _ _ _ _ htr).2.1⟩
  · exact fun pre a i v post htr => ⟨(h2 _ _ _ _ _ htr).1, (h2 _ _ _ _ _ htr).2.1⟩

/-! ### The orderings are needed -/

/-- Push, then pop by an unrelated thread, which then reads the element. -/
def staleReadActs : List (RAct Nat) := rPush 0 0 0 0 10 ++ [.dropRef 0 1] ++ rPop 1 0 1 ++ [.read 1 0]

/-- If `pop_ref` loaded the slot state with `Relaxed`, a consumer could read uninitialised memory. -/
theorem C18_pop_acquire_needed : ∃ (tr : List (REv Nat)) (s : RState 8 Nat),
    RExec { Orders.source with popSlot := .relaxed } 8 1 tr s ∧ At tr 2 (.access 0 0 (.create 10)) ∧
    At tr 8 (.access 1 0 (.read none)) ∧ ¬ HB tr 2 8 := by
  obtain ⟨s, hs⟩ := RExec.of_acts (o := { Orders.source with popSlot := .relaxed }) (w := 8) (cap := 1)
    staleReadActs
    [(.core (.invoke 0 .push), []), (.core (.reserve 0 0), [0]), (.core (.access 0 0 (.create 10)), [1, 0]),
     (.core (.ret 0 .pushed), [2, 1, 0]), (.core (.commit 0 0 (some 10)), [2, 3, 1, 0]), (.core (.invoke 1 .pop), []),
     (.core (.dequeue 1 0 (some 10)), [5]), (.core (.ret 1 .popped), [6, 5]), (.core (.access 1 0 (.read none)), [6, 7, 5])]
    (by decide +kernel) (by decide +kernel)
  refine ⟨_, s, hs, rfl, rfl, ?_⟩
  rintro ⟨e, he, hp⟩
  cases he
  simp at hp

/-- If the drop of a `Ref` stored the slot state with `Relaxed`, the same could happen. -/
theorem C18_drop_release_needed : ∃ (tr : List (REv Nat)) (s : RState 8 Nat),
    RExec { Orders.source with dropRef := .relaxed } 8 1 tr s ∧ At tr 2 (.access 0 0 (.create 10)) ∧
    At tr 8 (.access 1 0 (.read none)) ∧ ¬ HB tr 2 8 := by
  obtain ⟨s, hs⟩ := RExec.of_acts (o := { Orders.source with dropRef := .relaxed }) (w := 8) (cap := 1)
    staleReadActs
    [(.core (.invoke 0 .push), []), (.core (.reserve 0 0), [0]), (.core (.access 0 0 (.create 10)), [1, 0]),
     (.core (.ret 0 .pushed), [2, 1, 0]), (.core (.commit 0 0 (some 10)), [2, 3, 1, 0]), (.core (.invoke 1 .pop), []),
     (.core (.dequeue 1 0 (some 10)), [5]), (.core (.ret 1 .popped), [6, 5]), (.core (.access 1 0 (.read none)), [6, 7, 5])]
    (by decide +kernel) (by decide +kernel)
  refine ⟨_, s, hs, rfl, rfl, ?_⟩
  rintro ⟨e, he, hp⟩
  cases he
  simp at hp

/-- Push, pop (which leaves 77), and a push by an unrelated thread, which recycles the element. -/
def staleRecycleActs : List (RAct Nat) :=
  rPush 0 0 0 0 10 ++ [.dropRef 0 1] ++ rPop 1 0 1 ++
  [.write 1 77, .dropRef 1 2, .invoke 2 .push, .run 2 1 0, .run 2 2 0, .run 2 1 2, .elem 2 12 1]

/-- If `push_ref` loaded the slot state with `Relaxed`, a producer could recycle an element that the consumer is
still using. -/
theorem C18_push_acquire_needed : ∃ (tr : List (REv Nat)) (s : RState 8 Nat),
    RExec { Orders.source with pushSlot := .relaxed } 8 1 tr s ∧ At tr 8 (.access 1 0 (.write 77)) ∧
    At tr 12 (.access 2 0 (.recycle (some 10) 12)) ∧ ¬ HB tr 8 12 := by
  obtain ⟨s, hs⟩ := RExec.of_acts (o := { Orders.source with pushSlot := .relaxed }) (w := 8) (cap := 1)
    staleRecycleActs
    [(.core (.invoke 0 .push), []), (.core (.reserve 0 0), [0]), (.core (.access 0 0 (.create 10)), [1, 0]),
     (.core (.ret 0 .pushed), [2, 1, 0]), (.core (.commit 0 0 (some 10)), [2, 3, 1, 0]), (.core (.invoke 1 .pop), []),
     (.core (.dequeue 1 0 (some 10)), [5, 4, 2, 3, 1, 0]), (.core (.ret 1 .popped), [6, 5, 4, 2, 3, 1, 0]),
     (.core (.access 1 0 (.write 77)), [6, 7, 5, 4, 2, 3, 1, 0]), (.core (.release 1 0 (some 77)), [8, 6, 7, 5, 4, 2, 3, 1, 0]),
     (.core (.invoke 2 .push), []), (.core (.reserve 2 0), [10, 1, 0]), (.core (.access 2 0 (.recycle (some 10) 12)), [11, 10, 1, 0]),
     (.core (.ret 2 .pushed), [12, 11, 10, 1, 0])]
    (by decide +kernel) (by decide +kernel)
  refine ⟨_, s, hs, rfl, rfl, ?_⟩
  rintro ⟨e, he, hp⟩
  cases he
  simp at hp

/-! ### The properties of the sequentially consistent model that survive stale loads -/

/-- C01 under the orderings of the source. -/
theorem C18_fifo (h : RRun w cap tr s) :
    deqVals (evsOf tr) = ((resOps (evsOf tr)).take (nDeq (evsOf tr))).map (sent (evsOf tr)) ∧
    (∀ v ∈ deqVals (evsOf tr), v ≠ none) :=
  h.facts.fifo

/-- C01, supplement, under the orderings of the source. -/
theorem C18_fifo_once (h : RRun w cap tr s) :
    (resOps (evsOf tr)).Nodup ∧ (deqOps (evsOf tr)).Nodup ∧
    (∀ a i v i' v', Event.commit a i v ∈ evsOf tr → Event.commit a i' v' ∈ evsOf tr → i = i' ∧ v = v') ∧
    (∀ pre a i v post, evsOf tr = pre ++ .commit a i v :: post → a ∈ resOps pre ∧ v = content a pre) ∧
    (∀ pre b i v post, evsOf tr = pre ++ .dequeue b i v :: post →
      ∃ a, (resOps pre)[nDeq pre]? = some a ∧ Event.commit a i v ∈ pre) :=
  h.facts.fifo_once

example : deqVals (evsOf demoTr) = [some 11, some 12] := by rw [demoTr_evs]; decide

/-- C02 under the orderings of the source. -/
theorem C18_capacity (h : RRun w cap tr s) {pre : Trace V} (hp : pre <+: evsOf tr) :
    nDeq pre ≤ nRes pre ∧ ((resOps pre).drop (nDeq pre)).length ≤ cap ∧
    ∀ a i, Event.reserve a i ∈ pre → ¬ Committed pre a → a ∈ (resOps pre).drop (nDeq pre) :=
  h.facts.capacity hp

/-- C03 under the orderings of the source: `Full` is never due to a stale load. -/
theorem C18_full_truthful (h : RRun w cap tr s) {pre post : Trace V} {a : OpId}
    (htr : evsOf tr = pre ++ .ret a .full :: post) :
    Pending pre a ∧ Event.invoke a .push ∈ pre ∧ nRes pre = nDeq pre + cap :=
  h.facts.full_truthful htr

/-- C05 under the orderings of the source. -/
theorem C18_exclusive (h : RRun w cap tr s) :
    (∀ pre a b i, pre <+: evsOf tr → Holds pre a i → Holds pre b i → a = b) ∧
    (∀ pre a i k post, evsOf tr = pre ++ .access a i k :: post → Holds pre a i) ∧
    (∀ pre a i v post, evsOf tr = pre ++ .commit a i v :: post → Holds pre a i) ∧
    (∀ pre a i v post, evsOf tr = pre ++ .release a i v :: post → Holds pre a i) :=
  h.facts.exclusive

/-- C06 and C11 under the orderings of the source. -/
theorem C18_no_crash (h : RRun w cap tr s) (a : OpId) (c : Crash) : Event.ret a (.crash c) ∉ evsOf tr := by
  cases c with
  | oob => exact h.facts.in_bounds a
  | overflow => exact (h.facts.no_internal_panic a).1

/-- C07 under the orderings of the source. -/
theorem C18_initialised (h : RRun w cap tr s) :
    (∀ a i v, Event.dequeue a i v ∈ evsOf tr → v ≠ none) ∧
    (∀ a i o n, Event.access a i (.recycle o n) ∈ evsOf tr → o ≠ none) ∧
    (∀ a i o, Event.access a i (.recyclePanic o) ∈ evsOf tr → o ≠ none) ∧
    (∀ a i v, Event.access a i (.read v) ∈ evsOf tr → v ≠ none) ∧
    (∀ a i v, Event.commit a i v ∈ evsOf tr → v ≠ none) ∧
    (∀ a i v, Event.release a i v ∈ evsOf tr → v ≠ none) :=
  h.facts.initialised

/-- C10 under the orderings of the source. -/
theorem C18_recycle (h : RRun w cap tr s) :
    (∀ pre a i o n post, evsOf tr = pre ++ .access a i (.recycle o n) :: post →
      o = lastLeft i pre ∧ o ≠ none ∧ ¬ Returned pre a) ∧
    (∀ pre a i o post, evsOf tr = pre ++ .access a i (.recyclePanic o) :: post →
      o = lastLeft i pre ∧ o ≠ none ∧ ¬ Returned pre a) ∧
    (∀ a, (inits a (evsOf tr)).length ≤ 1) ∧
    (∀ a, Event.ret a .pushed ∈ evsOf tr → (inits a (evsOf tr)).length = 1) :=
  h.facts.recycle

/-- C12 under the orderings of the source: no reservation after the close. -/
theorem C18_close_final (h : RRun w cap tr s) {pre post : Trace V} {a : OpId} {i : Nat}
    (htr : evsOf tr = pre ++ .reserve a i :: post) : ¬ Closed pre :=
  (h.facts.evOk htr).2.1

/-- C13 under the orderings of the source. -/
theorem C18_drained_before_closed (h : RRun w cap tr s) {pre post : Trace V} {a : OpId}
    (htr : evsOf tr = pre ++ .ret a .closed :: post) (hpop : Event.invoke a .pop ∈ pre) :
    Closed pre ∧ nDeq pre = nRes (evsOf tr) :=
  h.facts.drained_before_closed htr hpop

/-- C14 under the orderings of the source. -/
theorem C18_producer_order (h : RRun w cap tr s) {pre post : Trace V} {a b : OpId} {op : Op} {p q : Nat}
    (htr : evsOf tr = pre ++ .invoke b op :: post) (hret : Returned pre a)
    (ha : (resOps (evsOf tr))[p]? = some a) (hb : (resOps (evsOf tr))[q]? = some b) : p < q :=
  h.facts.producer_order htr hret ha hb

/-! ### What stale loads cannot hide

A call may miss what other threads have done, but not what happened before the call. -/

theorem RRun.know (h : RRun w cap tr s) : KInv w cap tr s ∧ KTr w cap tr s :=
  h.exec.know h.sized source_synchronised

/-- **C18** `pop_ref` returns `Empty` or `Closed` only if there is a position `q` in the order of the reservations
such that everything before `q` was dequeued when the call returned, all dequeues that happened before the
call are of positions before `q`, and the push at `q`, if any, was not known to be finished: the drop of
its `Ref` did not happen before the call. -/
theorem C18_empty (h : RRun w cap tr s) {a : OpId} {i p : Nat} {r : Ret}
    (hi : At tr i (.invoke a .pop)) (hr : At tr p (.ret a r)) (he : r = .empty ∨ r = .closed) :
    ∃ q, q ≤ nDeq (evsOf (tr.take p)) ∧
      (∀ n b j x, HB tr n i → At tr n (.dequeue b j x) → nDeq (evsOf (tr.take n)) < q) ∧
      (∀ n b j x, HB tr n i → At tr n (.commit b j x) → (resOps (evsOf tr))[q]? ≠ some b) :=
  empty_known h.facts h.know.2 h.exec.hbInv hi hr he

/-- **C18** A single consumer (the other dequeues up to its return happened before its call) finds the oldest element
if the drop of the `Ref` of that push happened before the call. -/
theorem C18_no_false_empty (h : RRun w cap tr s) {a b : OpId} {i p c j : Nat} {x : Option V} {r : Ret}
    (hi : At tr i (.invoke a .pop)) (hr : At tr p (.ret a r))
    (hd : ∀ n b' j' x', n < p → At tr n (.dequeue b' j' x') → b' ≠ a → HB tr n i)
    (hq : (resOps (evsOf tr))[nDeq (evsOf (tr.take i))]? = some b)
    (hc : At tr c (.commit b j x)) (hci : HB tr c i) : r = .popped :=
  popped_known h.facts h.know.2 h.exec.hbInv hi hr hd hq hc hci

/-- **C18** A push that is called after the queue was closed returns `Closed`. -/
theorem C18_push_after_close (h : RRun w cap tr s) {a b : OpId} {i p c : Nat} {r : Ret}
    (hi : At tr i (.invoke a .push)) (hr : At tr p (.ret a r))
    (hc : At tr c (.close b)) (hci : HB tr c i) : r = .closed :=
  push_after_close h.facts h.know.2 h.exec.hbInv hi hr hc hci

/-- Push, pop, pop (empty), each called after the one before has returned; then a push that is closed out
and a pop that finds its predecessor's element gone. -/
def knowActs : List (RAct Nat) :=
  rPush 0 0 0 0 10 ++ [.dropRef 0 1, .sync 0 1] ++ rPop 1 0 1 ++ [.dropRef 1 2, .sync 1 2] ++
  [.invoke 2 .pop, .run 2 1 0, .run 2 2 0, .run 2 1 2, .sync 2 3, .invoke 3 (.close false), .run 3 2 3, .sync 3 4,
   .invoke 4 .push, .run 4 3 0, .run 4 0 0, .sync 4 5, .invoke 5 .pop, .run 5 1 0, .run 5 2 0, .run 5 3 4]

def knowTr : List (REv Nat) :=
  ((runRActs Orders.source 1 (RState.init 8 Nat) knowActs).map Prod.snd).getD []

theorem knowRRun : ∃ s, RRun 8 1 knowTr s := by
  obtain ⟨s, hs⟩ := RExec.of_acts (o := Orders.source) (w := 8) (cap := 1) knowActs knowTr
    (by decide +kernel) (by decide +kernel)
  exact ⟨s, by decide, hs⟩

/-- `C18_empty`: the third call, which comes after a commit and its dequeue. -/
example : At knowTr 9 (.invoke 2 .pop) ∧ At knowTr 10 (.ret 2 .empty) ∧ HB knowTr 6 9 ∧
    At knowTr 6 (.dequeue 1 0 (some 10)) ∧ At knowTr 16 (.invoke 5 .pop) ∧ At knowTr 17 (.ret 5 .closed) := by
  refine ⟨by decide +kernel, by decide +kernel, ?_, by decide +kernel, by decide +kernel, by decide +kernel⟩
  exact ⟨(.core (.invoke 2 .pop), [8, 6, 7, 5, 4, 2, 3, 1, 0, 4, 2, 3, 1, 0]), by decide +kernel, by decide⟩

/-- `C18_no_false_empty`: the second call finds what the first has pushed. -/
example : At knowTr 5 (.invoke 1 .pop) ∧ At knowTr 7 (.ret 1 .popped) ∧ At knowTr 4 (.commit 0 0 (some 10)) ∧
    HB knowTr 4 5 ∧ (resOps (evsOf knowTr))[nDeq (evsOf (knowTr.take 5))]? = some 0 ∧
    ∀ n b' j' x', n < 7 → At knowTr n (.dequeue b' j' x') → b' ≠ 1 → HB knowTr n 5 := by
  refine ⟨by decide +kernel, by decide +kernel, by decide +kernel, ?_, by decide +kernel, ?_⟩
  · exact ⟨(.core (.invoke 1 .pop), [4, 2, 3, 1, 0]), by decide +kernel, by decide⟩
  · intro n b j x hn hd hb
    have hm := hd.mem_take hn
    rw [show evsOf (knowTr.take 7) = [.invoke 0 .push, .reserve 0 0, .access 0 0 (.create 10), .ret 0 .pushed,
      .commit 0 0 (some 10), .invoke 1 .pop, .dequeue 1 0 (some 10)] by decide +kernel] at hm
    simp at hm
    exact absurd hm.1 hb

/-- `C18_push_after_close`. -/
example : At knowTr 12 (.close 3) ∧ At knowTr 14 (.invoke 4 .push) ∧ At knowTr 15 (.ret 4 .closed) ∧
    ∃ e, knowTr[14]? = some e ∧ 12 ∈ e.2 := by
  refine ⟨by decide +kernel, by decide +kernel, by decide +kernel, ?_⟩
  exact ⟨knowTr[14]'(by decide +kernel), by decide +kernel, by decide +kernel⟩

end Thingbuf.RA
