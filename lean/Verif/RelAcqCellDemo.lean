import Verif.RelAcqCellWake
import Verif.RelAcqProps
/-
Concrete runs of the release/acquire machine with the wait cell, and ways to check properties of their traces.
-/
namespace Thingbuf.RA

variable {w cap : Nat} {V : Type} {o : Orders} {co : CellOrders} {c : Cell.Config} {tr : List (REv V)} {s : XState w V}

theorem runXActs_exec {acts : List (XAct V)} : ∀ {t t' : List (REv V)} {s s' : XState w V},
    XExec o co c w cap t s → runXActs o co c cap s acts = some (s', t') →
    nRes (evsOf (t ++ t')) + 2 * cap < period w cap → XExec o co c w cap (t ++ t') s' := by
  induction acts with
  | nil =>
    intro t t' s s' h hr _
    cases hr
    rwa [List.append_nil]
  | cons act acts ih =>
    intro t t' s s' h hr hf
    simp only [runXActs] at hr
    split at hr
    · cases hr
    · rename_i s1 e1 h1
      split at hr
      · cases hr
      · rename_i s2 e2 h2
        cases hr
        rw [← List.append_assoc] at hf ⊢
        refine ih (XExec.step h h1 ?_) h2 hf
        intro a _
        have : nRes (evsOf (t ++ e1)) ≤ nRes (evsOf ((t ++ e1) ++ e2)) := by
          rw [evsOf_append (t ++ e1) e2, nRes_append]; omega
        omega

/-- A concrete run in which fewer places are reserved than a period has. -/
theorem XExec.of_acts (acts : List (XAct V)) (t : List (REv V))
    (h : (runXActs o co c cap (XState.init w V) acts).map Prod.snd = some t)
    (hf : nRes (evsOf t) + 2 * cap < period w cap) : ∃ s, XExec o co c w cap t s := by
  obtain ⟨⟨s, t'⟩, hr, rfl⟩ := Option.map_eq_some_iff.1 h
  exact ⟨s, by simpa using runXActs_exec (t := []) .init hr (by simpa using hf)⟩

theorem hb_iff {p q : Nat} : HB tr p q ↔ (tr[q]?.any fun e => decide (p ∈ e.2)) = true := by
  unfold HB
  cases tr[q]? <;> simp

instance {p q : Nat} : Decidable (HB tr p q) := decidable_of_iff _ hb_iff.symm

/-- The events of a concrete run. -/
def xTrace (co : CellOrders) (acts : List (XAct Nat)) : List (REv Nat) :=
  ((runXActs Orders.source co ⟨true, true⟩ 1 (XState.init 8 Nat) acts).map Prod.snd).getD []

theorem xTrace_exec (co : CellOrders) (acts : List (XAct Nat))
    (h : (runXActs Orders.source co ⟨true, true⟩ 1 (XState.init 8 Nat) acts).isSome = true)
    (hf : nRes (evsOf (xTrace co acts)) + 2 < period 8 1) :
    ∃ s, XExec Orders.source co ⟨true, true⟩ 8 1 (xTrace co acts) s := by
  refine XExec.of_acts acts _ ?_ hf
  obtain ⟨r, hr⟩ := Option.isSome_iff_exists.1 h
  unfold xTrace
  rw [hr]
  rfl

/-- `wait_with` by `a`, which finds the cell free and registers `v`.  `l`: the message of `lock` that is read;
`k`: the write to the stored waker that is seen. -/
def xWait (a v l k : Nat) : List (XAct Nat) :=
  [.cell (.callWait a) 0, .cell (.run a) l, .cell (.mk a v) 0, .cell (.run a) 0, .cell (.run a) k,
   .cell (.run a) (l + 1)]

/-- `notify` or `close_tx` by `b`, which finds the cell free. -/
def xNotify (b : Nat) (close : Bool) (l k : Nat) : List (XAct Nat) :=
  [.cell (.callNotify b close) 0, .cell (.run b) l, .cell (.run b) 0, .cell (.run b) k, .cell (.run b) (l + 1),
   .cell (.run b) 0]

/-- `pop_ref` by `a` of a queue of capacity 1, which keeps finding the slot in its initial state, until it gives up.
`t`: the newest message of `tail`. -/
def xStalePop (a t : Nat) : List (XAct Nat) :=
  ([.invoke a .pop, .run a 0 0, .run a 0 0, .run a t (t + 1), .run a 0 0, .run a 0 0, .run a (t + 1) (t + 2),
    .run a 0 0, .run a 0 0, .run a (t + 2) (t + 3), .run a 0 0, .run a 0 0, .run a (t + 3) (t + 4)] : List (RAct Nat)).map .core

/-- `push_ref` by 0 of a new queue; the `Ref` is dropped, and then the same thread makes the call 30. -/
def xPushed : List (XAct Nat) :=
  (rPush 0 0 0 0 10 ++ ([.dropRef 0 1, .sync 0 30] : List (RAct Nat))).map .core

/-- `wait_with` by 20, of a new cell; while it stores its waker, 30 calls `notify`. -/
def xDuring : List (XAct Nat) :=
  [.cell (.callWait 20) 0, .cell (.run 20) 0, .cell (.mk 20 5) 0, .cell (.run 20) 0, .cell (.run 20) 0,
   .cell (.callNotify 30 false) 0, .cell (.run 30) 1, .cell (.run 20) 2, .cell (.run 20) 0, .cell (.run 20) 1,
   .cell (.run 20) 2, .cell (.run 20) 0, .cell (.run 20) 0]

/-! Ways to check `OneReceiver`, `CellQuiet`, ... of a concrete trace. -/

def callOf : XEv V → Option OpId
  | .cell (.callWait a) => some a
  | _ => none

def retOf : XEv V → Option OpId
  | .cell (.retWait a _) => some a
  | _ => none

def callNotifyOf : XEv V → Option OpId
  | .cell (.callNotify a _) => some a
  | _ => none

def retNotifyOf : XEv V → Option OpId
  | .cell (.retNotify a _) => some a
  | _ => none

def isAssert : XEv V → Bool
  | .cell (.assertFailed _) => true
  | _ => false

def isWait : XEv V → Bool
  | .cell (.retWait _ .wait) => true
  | _ => false

def oneReceiverB (tr : List (REv V)) : Bool :=
  tr.zipIdx.all fun x => tr.zipIdx.all fun y =>
    !(decide (x.2 < y.2) && (callOf x.1.1).isSome && (callOf y.1.1).isSome) ||
      tr.zipIdx.any fun z => retOf z.1.1 == callOf x.1.1 && decide (HB tr z.2 y.2)

theorem retOf_eq {e : XEv V} {a : OpId} (h : retOf e = some a) : ∃ r, e = .cell (.retWait a r) := by
  unfold retOf at h
  split at h
  · rename_i a' r; cases h; exact ⟨r, rfl⟩
  · cases h

theorem retNotifyOf_eq {e : XEv V} {a : OpId} (h : retNotifyOf e = some a) : ∃ r, e = .cell (.retNotify a r) := by
  unfold retNotifyOf at h
  split at h
  · rename_i a' r; cases h; exact ⟨r, rfl⟩
  · cases h

theorem AtX.zip {p : Nat} {e : XEv V} (h : AtX tr p e) : ∃ x, (x, p) ∈ tr.zipIdx ∧ x.1 = e := by
  obtain ⟨x, hx, he⟩ := h.ev
  exact ⟨x, List.mem_zipIdx_iff_getElem?.2 hx, he⟩

theorem oneReceiver_of {tr : List (REv V)} (h : oneReceiverB tr = true) : OneReceiver tr := by
  intro a b p q hpq hp hq
  obtain ⟨x, hx, hxe⟩ := hp.zip
  obtain ⟨y, hy, hye⟩ := hq.zip
  have h1 := List.all_eq_true.1 (List.all_eq_true.1 h _ hx) _ hy
  simp only [hxe, hye, callOf, hpq, decide_true, Option.isSome_some, Bool.and_true, Bool.not_true, Bool.false_or,
    List.any_eq_true, Bool.and_eq_true, beq_iff_eq, decide_eq_true_eq] at h1
  obtain ⟨⟨z, n⟩, hz, h2, h3⟩ := h1
  obtain ⟨r, hr⟩ := retOf_eq h2
  have hz := List.mem_zipIdx_iff_getElem?.1 hz
  exact ⟨n, r, hr ▸ AtX.of_ev hz, h3⟩

def cellQuietB (tr : List (REv V)) : Bool :=
  tr.all fun x => (callOf x.1 == none || tr.any fun y => retOf y.1 == callOf x.1) &&
    (callNotifyOf x.1 == none || tr.any fun y => retNotifyOf y.1 == callNotifyOf x.1)

theorem cellQuiet_of {tr : List (REv V)} (h : cellQuietB tr = true) : CellQuiet tr := by
  refine ⟨fun a p hp => ?_, fun a x p hp => ?_⟩
  · obtain ⟨x, hx, hxe⟩ := hp.ev
    have h1 := (Bool.and_eq_true _ _ ▸ List.all_eq_true.1 h _ (List.mem_of_getElem? hx)).1
    simp only [hxe, callOf, List.any_eq_true, beq_iff_eq, Bool.or_eq_true, reduceCtorEq, false_or] at h1
    obtain ⟨y, hy, h2⟩ := h1
    obtain ⟨r, hr⟩ := retOf_eq h2
    obtain ⟨n, hn⟩ := List.mem_iff_getElem?.1 hy
    exact ⟨n, r, hr ▸ AtX.of_ev hn⟩
  · obtain ⟨x, hx, hxe⟩ := hp.ev
    have h1 := (Bool.and_eq_true _ _ ▸ List.all_eq_true.1 h _ (List.mem_of_getElem? hx)).2
    simp only [hxe, callNotifyOf, List.any_eq_true, beq_iff_eq, Bool.or_eq_true, reduceCtorEq, false_or] at h1
    obtain ⟨y, hy, h2⟩ := h1
    obtain ⟨r, hr⟩ := retNotifyOf_eq h2
    obtain ⟨n, hn⟩ := List.mem_iff_getElem?.1 hy
    exact ⟨n, r, hr ▸ AtX.of_ev hn⟩

theorem noAssert_of {tr : List (REv V)} (h : (tr.all fun x => !isAssert x.1) = true) (d : OpId) (n : Nat) :
    ¬ AtX tr n (.cell (.assertFailed d)) := by
  intro hn
  obtain ⟨x, hx, hxe⟩ := hn.ev
  have := List.all_eq_true.1 h _ (List.mem_of_getElem? hx)
  rw [hxe] at this
  cases this

/-- No call of `wait_with` was told to wait after position `p`. -/
theorem lastWait_of {tr : List (REv V)} {p : Nat} (h : ((tr.drop (p + 1)).all fun x => !isWait x.1) = true) (d : OpId) (q : Nat)
    (hq : p < q) : ¬ AtX tr q (.cell (.retWait d .wait)) := by
  intro hn
  obtain ⟨x, hx, hxe⟩ := hn.ev
  have hm : x ∈ tr.drop (p + 1) := by
    refine List.mem_of_getElem? (i := q - (p + 1)) ?_
    rw [List.getElem?_drop, Nat.add_sub_cancel' hq]
    exact hx
  have := List.all_eq_true.1 h _ hm
  rw [hxe] at this
  cases this

def isWake (v : Nat) : XEv V → Bool
  | .cell (.wake _ u) => u == v
  | _ => false

theorem noWake_of {tr : List (REv V)} {v : Nat} (h : (tr.all fun x => !isWake v x.1) = true) (q : Nat) (d : OpId) :
    ¬ AtX tr q (.cell (.wake d v)) := by
  intro hn
  obtain ⟨x, hx, hxe⟩ := hn.ev
  have := List.all_eq_true.1 h _ (List.mem_of_getElem? hx)
  rw [hxe] at this
  simp [isWake] at this

def isDequeue : XEv V → Bool
  | .core (.dequeue _ _ _) => true
  | _ => false

theorem noDequeue_of {tr : List (REv V)} {j i d : Nat} (h : ((tr.take j).all fun x => !isDequeue x.1) = true) (n : Nat) (b' : OpId)
    (j' : Nat) (x' : Option V) (hn : n < j) (ha : At tr n (.dequeue b' j' x')) (_ : b' ≠ d) : HB tr n i := by
  obtain ⟨x, hx, hxe⟩ := (AtX.take ha hn).ev
  have := List.all_eq_true.1 h _ (List.mem_of_getElem? hx)
  rw [hxe] at this
  cases this

end Thingbuf.RA
