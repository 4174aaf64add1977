import Verif.RelAcqLen
import Verif.CoreProps
/-
C71: `len`, `remaining` and `is_empty` under the memory orderings written in the source.

`nRes (evsOf (tr.take r))` and `nDeq (evsOf (tr.take r))` are the numbers of places reserved by pushes and of elements
dequeued by pops before position `r` of the trace; the push whose reservation is at position `m` is number
`nRes (evsOf (tr.take m))`, counted from 0, and the same for pops.  `HB tr m i`: what happened at position `m` happened
before what happened at position `i`.  `remaining` and `isEmptyOf` are those of C09.
-/
namespace Thingbuf.RA

variable {w cap : Nat} {V : Type} {o : Orders} {tr : List (REv V)} {s : RState w V}

theorem source_len : LenOrders Orders.source := ⟨rfl, rfl, rfl⟩

/-- The pushes and the pops that a call of `len` has counted: all those that happened before the call, and nothing that
happens after its return. -/
structure Counted (tr : List (REv V)) (i r pushes pops : Nat) : Prop where
  pushed : pushes ≤ nRes (evsOf (tr.take r))
  popped : pops ≤ nDeq (evsOf (tr.take r))
  knownPushes : ∀ m b j, HB tr m i → At tr m (.reserve b j) → nRes (evsOf (tr.take m)) < pushes
  knownPops : ∀ m b j x, HB tr m i → At tr m (.dequeue b j x) → nDeq (evsOf (tr.take m)) < pops

/-- Which orderings matter for `len`. -/
theorem C71_len_orders (hw : WellSized w cap) (hs : Synchronised o) (ho : LenOrders o) (h : RExec o w cap tr s)
    (hc : ¬ Closed (evsOf tr)) {a : OpId} {i r n : Nat} (hi : At tr i (.invoke a .len)) (hr : At tr r (.ret a (.len n))) :
    ∃ pushes pops, Counted tr i r pushes pops ∧ pushes = pops + n ∧ n ≤ cap := by
  have hlt := invoke_lt_ret ((h.inv hw hs).facts hw) hi hr
  obtain ⟨t, u, P, Q, rfl, ⟨c, rfl, h1, h2, h3⟩, ⟨rfl, h4, h5⟩, h6, h7⟩ := (h.len hw hs ho).2.rets r a _ hr
  have hlt' : ∀ n, HB tr n i → n < r := by
    rintro n ⟨e, h4, h5⟩
    have := (h.hbInv.ord i e h4 n h5).1
    omega
  have hcf : c = false := by
    cases c with
    | false => rfl
    | true =>
      obtain ⟨b, hb⟩ := closedB_iff.1 (h3 rfl)
      refine absurd ⟨b, ?_⟩ hc
      rw [← List.take_append_drop r tr, evsOf_append]
      exact List.mem_append_left _ hb
  subst hcf
  rw [tailWord_false, lenOf_enc hw h6 h7]
  refine ⟨P, Q, ⟨h1, h4, fun m b j hm hb => ?_, fun m b j x hm hb => ?_⟩, by omega, by omega⟩
  · have hmr := hlt' m hm
    have := h2 m b j ⟨i, _, hi.take hlt, hm.take hlt⟩ (hb.take hmr)
    rwa [List.take_take, Nat.min_eq_left (by omega)] at this
  · have hmr := hlt' m hm
    have := h5 m b j x ⟨i, _, hi.take hlt, hm.take hlt⟩ (hb.take hmr)
    rwa [List.take_take, Nat.min_eq_left (by omega)] at this

/-- **C71** On a queue that nobody closes, `len()` returns the number of pushes minus the number of pops that it has
counted: all those that happened before the call, and possibly some others before its return.  It is never
more than the capacity, so `remaining()` does not underflow. -/
theorem C71_len (h : RRun w cap tr s) (hc : ¬ Closed (evsOf tr)) {a : OpId} {i r n : Nat}
    (hi : At tr i (.invoke a .len)) (hr : At tr r (.ret a (.len n))) :
    (∃ pushes pops, Counted tr i r pushes pops ∧ pushes = pops + n) ∧ remaining cap n = some (cap - n) := by
  obtain ⟨P, Q, h1, h2, h3⟩ := C71_len_orders h.sized source_synchronised source_len h.exec hc hi hr
  exact ⟨⟨P, Q, h1, h2⟩, if_pos h3⟩

/-- All pushes before the return of the call were reserved before the call: the caller is the only producer. -/
def KnowsPushes (tr : List (REv V)) (i r : Nat) : Prop := ∀ m b j, m < r → At tr m (.reserve b j) → HB tr m i

/-- All dequeues before the return of the call happened before the call: the caller is the only consumer. -/
def KnowsPops (tr : List (REv V)) (i r : Nat) : Prop := ∀ m b j x, m < r → At tr m (.dequeue b j x) → HB tr m i

theorem Counted.all_pushes {i r P Q : Nat} (h : Counted tr i r P Q) (hk : KnowsPushes tr i r) :
    P = nRes (evsOf (tr.take r)) := by
  rcases Nat.eq_or_lt_of_le h.pushed with h1 | h1
  · exact h1
  · obtain ⟨m, b, j, h2, h3, h4⟩ := reserve_before h1
    have := h.knownPushes m b j (hk m b j h2 h3) h3
    omega

theorem Counted.all_pops {i r P Q : Nat} (h : Counted tr i r P Q) (hk : KnowsPops tr i r) :
    Q = nDeq (evsOf (tr.take r)) := by
  rcases Nat.eq_or_lt_of_le h.popped with h1 | h1
  · exact h1
  · obtain ⟨m, b, j, x, h2, h3, h4⟩ := dequeue_before h1
    have := h.knownPops m b j x (hk m b j x h2 h3) h3
    omega

/-- **C71** In a quiet moment (everything that was pushed and popped before the call returned had happened before the
call) `len()`, `remaining()` and `is_empty()` are exact. -/
theorem C71_exact_if_quiet (h : RRun w cap tr s) (hc : ¬ Closed (evsOf tr)) {a : OpId} {i r n : Nat}
    (hi : At tr i (.invoke a .len)) (hr : At tr r (.ret a (.len n)))
    (hp : KnowsPushes tr i r) (hq : KnowsPops tr i r) :
    nRes (evsOf (tr.take r)) = nDeq (evsOf (tr.take r)) + n ∧
    remaining cap n = some (cap - ((resOps (evsOf (tr.take r))).drop (nDeq (evsOf (tr.take r)))).length) ∧
    (isEmptyOf n = true ↔ IsEmpty (evsOf (tr.take r))) := by
  obtain ⟨⟨P, Q, h1, h2⟩, h3⟩ := C71_len h hc hi hr
  rw [h1.all_pushes hp, h1.all_pops hq] at h2
  refine ⟨h2, ?_, ?_⟩
  · rw [h3, List.length_drop]
    have : nRes (evsOf (tr.take r)) = (resOps (evsOf (tr.take r))).length := rfl
    congr 2
    omega
  · unfold isEmptyOf IsEmpty
    simp only [beq_iff_eq]
    omega

/-- **C71** For the only consumer: what `len()` counts is really there, and it counts every push that happened before the
call.  So `is_empty()` is false if the next element was pushed before. -/
theorem C71_consumer (h : RRun w cap tr s) (hc : ¬ Closed (evsOf tr)) {a : OpId} {i r n : Nat}
    (hi : At tr i (.invoke a .len)) (hr : At tr r (.ret a (.len n))) (hq : KnowsPops tr i r) :
    nDeq (evsOf (tr.take r)) + n ≤ nRes (evsOf (tr.take r)) ∧
    (∀ m b j, HB tr m i → At tr m (.reserve b j) → nRes (evsOf (tr.take m)) < nDeq (evsOf (tr.take r)) + n) ∧
    (∀ m b j, HB tr m i → At tr m (.reserve b j) → nDeq (evsOf (tr.take r)) ≤ nRes (evsOf (tr.take m)) →
      isEmptyOf n = false) := by
  obtain ⟨⟨P, Q, h1, h2⟩, -⟩ := C71_len h hc hi hr
  have h3 := h1.pushed
  have h4 := h1.knownPushes
  rw [h1.all_pops hq] at h2
  rw [h2] at h3 h4
  refine ⟨h3, h4, fun m b j h5 h6 h7 => ?_⟩
  have := h4 m b j h5 h6
  unfold isEmptyOf
  rw [beq_eq_false_iff_ne]
  omega

/-- **C71** For the only producer: `len()` counts everything that is there, so the places that `remaining()` reports are
really free, and it counts nothing whose dequeue happened before the call. -/
theorem C71_producer (h : RRun w cap tr s) (hc : ¬ Closed (evsOf tr)) {a : OpId} {i r n : Nat}
    (hi : At tr i (.invoke a .len)) (hr : At tr r (.ret a (.len n))) (hp : KnowsPushes tr i r) :
    (∀ k, remaining cap n = some k → nRes (evsOf (tr.take r)) + k ≤ nDeq (evsOf (tr.take r)) + cap) ∧
    (∀ m b j x, HB tr m i → At tr m (.dequeue b j x) → nDeq (evsOf (tr.take m)) + n < nRes (evsOf (tr.take r))) := by
  obtain ⟨⟨P, Q, h1, h2⟩, h3⟩ := C71_len h hc hi hr
  have h4 := h1.popped
  have h5 := h1.knownPops
  have h6 := h1.all_pushes hp
  refine ⟨fun k hk => ?_, fun m b j x h7 h8 => ?_⟩
  · unfold remaining at hk
    split at hk
    · cases hk; omega
    · cases hk
  · have := h5 m b j x h7 h8
    omega

/-! ### Concrete executions -/

/-- A queue of capacity 3.  One push and one pop; another push that the caller of `len` knows of, and one that it does
not know of and does not see. -/
def lenActs : List (RAct Nat) :=
  rPush 0 0 0 0 10 ++ [.dropRef 0 1, .sync 0 1] ++ rPop 1 0 1 ++ [.dropRef 1 2, .sync 1 2] ++
  [.invoke 2 .push, .run 2 1 0, .run 2 0 0, .run 2 1 2, .elem 2 12 0, .dropRef 2 1, .sync 2 5] ++
  [.invoke 5 .len, .run 5 2 0, .run 5 1 0, .run 5 2 0] ++
  [.invoke 3 .push, .run 3 2 0, .run 3 0 0, .run 3 2 3, .elem 3 13 0, .dropRef 3 1] ++
  [.sync 5 6, .invoke 6 .len, .run 6 2 0, .run 6 1 0, .run 6 2 0]

def lenEvs : Trace Nat :=
  [.invoke 0 .push, .reserve 0 0, .access 0 0 (.create 10), .ret 0 .pushed, .commit 0 0 (some 10),
   .invoke 1 .pop, .dequeue 1 0 (some 10), .ret 1 .popped, .release 1 0 (some 10),
   .invoke 2 .push, .reserve 2 1, .access 2 1 (.create 12), .ret 2 .pushed, .commit 2 1 (some 12),
   .invoke 5 .len, .ret 5 (.len 1),
   .invoke 3 .push, .reserve 3 2, .access 3 2 (.create 13), .ret 3 .pushed, .commit 3 2 (some 13),
   .invoke 6 .len, .ret 6 (.len 1)]

def lenTr : List (REv Nat) :=
  ((runRActs Orders.source 3 (RState.init 8 Nat) lenActs).map Prod.snd).getD []

theorem lenTr_evs : evsOf lenTr = lenEvs := by decide +kernel

theorem lenRRun : ∃ s, RRun 8 3 lenTr s := by
  obtain ⟨s, hs⟩ := RExec.of_acts (o := Orders.source) (w := 8) (cap := 3) lenActs lenTr
    (by decide +kernel) (by decide +kernel)
  exact ⟨s, by decide, hs⟩

/-- `HB`, computed. -/
def hbB (tr : List (REv V)) (m i : Nat) : Bool :=
  match tr[i]? with
  | some e => decide (m ∈ e.2)
  | none => false

theorem HB.of_hbB {m i : Nat} (h : hbB tr m i = true) : HB tr m i := by
  unfold hbB at h
  split at h
  · exact ⟨_, by assumption, of_decide_eq_true h⟩
  · cases h

/-- `KnowsPushes` and `KnowsPops`, computed. -/
def knowsB (tr : List (REv V)) (i r : Nat) (pushes : Bool) : Bool :=
  (List.range r).all fun m =>
    match (tr.map Prod.fst)[m]? with
    | some (.core (.reserve _ _)) => !pushes || hbB tr m i
    | some (.core (.dequeue _ _ _)) => pushes || hbB tr m i
    | _ => true

theorem KnowsPushes.of_knowsB {i r : Nat} (h : knowsB tr i r true = true) : KnowsPushes tr i r := by
  intro m b j hm h1
  have := List.all_eq_true.1 h m (List.mem_range.2 hm)
  rw [show (tr.map Prod.fst)[m]? = _ from h1] at this
  exact HB.of_hbB (by simpa using this)

theorem KnowsPops.of_knowsB {i r : Nat} (h : knowsB tr i r false = true) : KnowsPops tr i r := by
  intro m b j x hm h1
  have := List.all_eq_true.1 h m (List.mem_range.2 hm)
  rw [show (tr.map Prod.fst)[m]? = _ from h1] at this
  exact HB.of_hbB (by simpa using this)

theorem lenTr_open : ¬ Closed (evsOf lenTr) := by
  rw [lenTr_evs]
  rintro ⟨b, hb⟩
  simp [lenEvs] at hb

/-- `C71_len`, `C71_exact_if_quiet` and `C71_producer`: the first call of `len` knows both pushes and the pop. -/
example : At lenTr 14 (.invoke 5 .len) ∧ At lenTr 15 (.ret 5 (.len 1)) ∧
    KnowsPushes lenTr 14 15 ∧ KnowsPops lenTr 14 15 ∧
    At lenTr 6 (.dequeue 1 0 (some 10)) ∧ HB lenTr 6 14 ∧ nRes (evsOf (lenTr.take 15)) = 2 := by
  refine ⟨by decide +kernel, by decide +kernel, .of_knowsB (by decide +kernel), .of_knowsB (by decide +kernel),
    by decide +kernel, .of_hbB (by decide +kernel), by decide +kernel⟩

/-- `C71_consumer`: the second call knows the pop and the push of the element that is next; there is a third push that
it does not know of, and which it does not count. -/
example : At lenTr 21 (.invoke 6 .len) ∧ At lenTr 22 (.ret 6 (.len 1)) ∧ KnowsPops lenTr 21 22 ∧
    At lenTr 10 (.reserve 2 1) ∧ HB lenTr 10 21 ∧ nDeq (evsOf (lenTr.take 22)) = nRes (evsOf (lenTr.take 10)) ∧
    hbB lenTr 17 21 = false ∧ nRes (evsOf (lenTr.take 22)) = 3 := by
  refine ⟨by decide +kernel, by decide +kernel, .of_knowsB (by decide +kernel),
    by decide +kernel, .of_hbB (by decide +kernel), by decide +kernel, by decide +kernel, by decide +kernel⟩

/-! ### The orderings are needed -/

/-- One push and its pop; a third thread then loads `tail` (old), `head` (new) and `tail` (old). -/
def staleLenActs : List (RAct Nat) :=
  rPush 0 0 0 0 10 ++ [.dropRef 0 1, .sync 0 1] ++ rPop 1 0 1 ++ [.dropRef 1 2] ++
  [.invoke 2 .len, .run 2 0 0, .run 2 1 0, .run 2 0 0]

/-- In this execution, with the orderings `o`, one element was ever pushed and `len()` says 2. -/
def LenWrong (o : Orders) : Prop :=
  ∃ (tr : List (REv Nat)) (s : RState 8 Nat) (r : Nat), RExec o 8 3 tr s ∧ ¬ Closed (evsOf tr) ∧
    At tr 9 (.invoke 2 .len) ∧ At tr r (.ret 2 (.len 2)) ∧ nRes (evsOf tr) = 1

def staleLenTr (o : Orders) : List (REv Nat) :=
  ((runRActs o 3 (RState.init 8 Nat) staleLenActs).map Prod.snd).getD []

def staleLenEvs : Trace Nat :=
  [.invoke 0 .push, .reserve 0 0, .access 0 0 (.create 10), .ret 0 .pushed, .commit 0 0 (some 10),
   .invoke 1 .pop, .dequeue 1 0 (some 10), .ret 1 .popped, .release 1 0 (some 10), .invoke 2 .len, .ret 2 (.len 2)]

theorem LenWrong.of_stale {o : Orders}
    (h1 : (runRActs o 3 (RState.init 8 Nat) staleLenActs).map Prod.snd = some (staleLenTr o))
    (h2 : evsOf (staleLenTr o) = staleLenEvs)
    (h3 : (staleLenTr o).map Prod.fst = staleLenEvs.map XEv.core) : LenWrong o := by
  have hn : nRes (evsOf (staleLenTr o)) = 1 := by rw [h2]; decide
  obtain ⟨s, hs⟩ := RExec.of_acts (o := o) (w := 8) (cap := 3) staleLenActs _ h1 (by rw [hn]; decide)
  have hat : ∀ p e, staleLenEvs[p]? = some e → At (staleLenTr o) p e := by
    intro p e he
    show ((staleLenTr o).map Prod.fst)[p]? = some (XEv.core e)
    rw [h3, List.getElem?_map, he]; rfl
  refine ⟨_, s, 10, hs, ?_, hat _ _ rfl, hat _ _ rfl, hn⟩
  rw [h2]
  rintro ⟨b, hb⟩
  simp [staleLenEvs] at hb

/-- **C71** If the loads of `len` were `Relaxed`, `len()` could count more elements than were ever pushed. -/
theorem C71_len_acquire_needed : LenWrong { Orders.source with len := .relaxed } :=
  .of_stale (by decide +kernel) (by decide +kernel) (by decide +kernel)

/-- **C71** The same if the CAS of `pop_ref` on `head` did not release. -/
theorem C71_pop_release_needed : LenWrong { Orders.source with popCasOk := .acquire } :=
  .of_stale (by decide +kernel) (by decide +kernel) (by decide +kernel)

/-- Three pushes that the caller of `len` knows of; a pop and a fourth push that it does not know of.  It loads `tail` (new),
`head` (old) and `tail` (new). -/
def lateHeadActs : List (RAct Nat) :=
  rPush 0 0 0 0 10 ++ [.dropRef 0 1, .sync 0 1] ++
  [.invoke 1 .push, .run 1 1 0, .run 1 0 0, .run 1 1 2, .elem 1 11 0, .dropRef 1 1, .sync 1 2] ++
  [.invoke 2 .push, .run 2 2 0, .run 2 0 0, .run 2 2 3, .elem 2 12 0, .dropRef 2 1, .sync 2 3, .sync 2 5] ++
  rPop 3 0 1 ++ [.dropRef 3 2, .sync 3 4] ++
  [.invoke 4 .push, .run 4 3 0, .run 4 2 0, .run 4 3 4, .elem 4 14 1, .dropRef 4 3] ++
  [.invoke 5 .len, .run 5 4 0, .run 5 0 0, .run 5 4 0]

def lateHeadTr : List (REv Nat) :=
  ((runRActs { Orders.source with pushCasOk := .acquire } 3 (RState.init 8 Nat) lateHeadActs).map Prod.snd).getD []

/-- **C71** If the CAS of `push_ref` on `tail` did not release, `len()` could be 1 although the call knows of three pushes and
there was only one pop. -/
theorem C71_push_release_needed :
    ∃ (tr : List (REv Nat)) (s : RState 8 Nat), RExec { Orders.source with pushCasOk := .acquire } 8 3 tr s ∧
      ¬ Closed (evsOf tr) ∧ At tr 24 (.invoke 5 .len) ∧ At tr 25 (.ret 5 (.len 1)) ∧
      nDeq (evsOf tr) = 1 ∧ HB tr 11 24 ∧ At tr 11 (.reserve 2 2) ∧ nRes (evsOf (tr.take 11)) = 2 := by
  obtain ⟨s, hs⟩ := RExec.of_acts (o := { Orders.source with pushCasOk := .acquire }) (w := 8) (cap := 3)
    lateHeadActs lateHeadTr (by decide +kernel) (by decide +kernel)
  refine ⟨_, s, hs, ?_, by decide +kernel, by decide +kernel, by decide +kernel, .of_hbB (by decide +kernel),
    by decide +kernel, by decide +kernel⟩
  have : closedB (evsOf lateHeadTr) = false := by decide +kernel
  rw [← closedB_iff, this]
  simp

/-- `LenWrong` contradicts `C71_len_orders`, so the orderings of the source exclude it. -/
theorem C71_len_not_wrong : ¬ LenWrong Orders.source := by
  rintro ⟨tr, s, r, h, hc, hi, hr, hn⟩
  obtain ⟨P, Q, h1, h2, -⟩ := C71_len_orders (by decide) source_synchronised source_len h hc hi hr
  have h3 := h1.pushed
  have h4 : nRes (evsOf tr) = nRes (evsOf (tr.take r)) + nRes (evsOf (tr.drop r)) := by
    rw [← nRes_append, ← evsOf_append, List.take_append_drop]
  omega

end Thingbuf.RA
