import Verif.TraceLemmas
/-
The inductive invariant of the ring buffer machine.
-/
namespace Thingbuf

variable {w cap : Nat} {V : Type}
variable {m : Prop}

/-- Boolean version of `Closed`. -/
def closedB (tr : Trace V) : Bool := tr.any fun | .close _ => true | _ => false

theorem closedB_iff {tr : Trace V} : closedB tr = true ↔ Closed tr := by
  unfold closedB Closed
  rw [List.any_eq_true]
  constructor
  · rintro ⟨e, he, h⟩
    cases e <;> simp_all
    exact ⟨_, he⟩
  · rintro ⟨a, ha⟩
    exact ⟨_, ha, rfl⟩

@[simp] theorem closedB_append (t u : Trace V) : closedB (t ++ u) = (closedB t || closedB u) := by
  simp [closedB]
@[simp] theorem closedB_nil : closedB ([] : Trace V) = false := rfl

/-- A call of `op` is in progress and has not claimed anything. -/
structure Pend (tr : Trace V) (a : OpId) (op : Op) : Prop where
  inv : Event.invoke a op ∈ tr
  uniq : ∀ op', Event.invoke a op' ∈ tr → op' = op
  nret : ¬ Returned tr a
  nres : a ∉ resOps tr
  ndeq : a ∉ deqOps tr
  ncom : ¬ Committed tr a
  nrel : ¬ Released tr a

/-- What the slot of position `p` contains when it is about to be recycled: the value left by
the operation that dequeued the previous element of this slot. -/
def Left (cap : Nat) (tr : Trace V) (s : State w V) (p : Nat) : Prop :=
  cap ≤ p → ∃ v b, (deqOps tr)[p - cap]? = some b ∧ s.val (p % cap) = some v ∧
    Event.release b (p % cap) (some v) ∈ tr

/-- Operation `a` is the push that reserved position `p`, and has not committed it. -/
structure PushAt (tr : Trace V) (a : OpId) (p : Nat) : Prop where
  res : (resOps tr)[p]? = some a
  nd : nDeq tr ≤ p
  inv : Event.invoke a .push ∈ tr
  ndeq : a ∉ deqOps tr
  ncom : ¬ Committed tr a
  nrel : ¬ Released tr a

/-- Operation `a` is the pop that dequeued position `p`, and has not released it. -/
structure PopAt (cap : Nat) (tr : Trace V) (a : OpId) (p : Nat) : Prop where
  deq : (deqOps tr)[p]? = some a
  nr : nRes tr ≤ p + cap
  inv : Event.invoke a .pop ∈ tr
  ret : Returned tr a
  nres : a ∉ resOps tr
  ncom : ¬ Committed tr a
  nrel : ¬ Released tr a

/-- At some instant of the call the queue was open. -/
def OpenAt (tr : Trace V) (a : OpId) : Prop := ∃ pre, pre <+: tr ∧ Invoked pre a ∧ ¬ Closed pre

/-- What holds of an operation that is at a given place in the code.  `m` says that loads return
the current value (sequential consistency); what depends on that is stated under `m`. -/
def pcInv (m : Prop) (w cap : Nat) (tr : Trace V) (s : State w V) (a : OpId) : PC w → Prop
  | .idle => (¬ Invoked tr a) ∧ ¬ Returned tr a ∧ a ∉ resOps tr ∧ a ∉ deqOps tr ∧
      ¬ Committed tr a ∧ ¬ Released tr a
  | .done => Invoked tr a ∧ Returned tr a ∧ (a ∈ resOps tr → Committed tr a) ∧
      (a ∈ deqOps tr → Released tr a)
  | .pushStart => Pend tr a .push
  | .pushReload _ => Pend tr a .push
  | .pushLoop _ t => Pend tr a .push ∧ (m →
      ∃ q c, t = tailWord w cap q c ∧ q ≤ nRes tr ∧ born a tr ≤ q ∧ (c = true → closedB tr = true) ∧
        (c = false → OpenAt tr a))
  | .pushCas _ t => Pend tr a .push ∧ (m →
      ∃ q, t = enc w cap q ∧ q ≤ nRes tr ∧ born a tr ≤ q ∧
        (q = nRes tr → q < nDeq tr + cap ∧ s.st (q % cap) = enc w cap q))
  | .pushHead _ t => Pend tr a .push ∧ (m →
      (∃ q, t = enc w cap q ∧ q ≤ nRes tr ∧ born a tr ≤ q) ∧ OpenAt tr a)
  | .pushInit t => ∃ p, PushAt tr a p ∧ ¬ Returned tr a ∧ t = enc w cap p ∧ Left cap tr s p
  | .pushHeld i ns => ∃ p, PushAt tr a p ∧ Returned tr a ∧ i = p % cap ∧ ns = enc w cap p + 1#w ∧
      ∃ v, s.val i = some v
  | .pushPanicked i => ∃ p, PushAt tr a p ∧ Returned tr a ∧ i = p % cap
  | .popStart => Pend tr a .pop
  | .popReload _ => Pend tr a .pop
  | .popLoop _ h => Pend tr a .pop ∧ (m →
      ∃ q, h = enc w cap q ∧ q ≤ nDeq tr ∧ born a tr ≤ q + cap)
  | .popCas _ h => Pend tr a .pop ∧ (m →
      ∃ q, h = enc w cap q ∧ q ≤ nDeq tr ∧ born a tr ≤ q + cap ∧
        (q = nDeq tr → q < nRes tr ∧ s.st (q % cap) = enc w cap q + 1#w))
  | .popTail _ h => Pend tr a .pop ∧ (m →
      ∃ q, h = enc w cap q ∧ q ≤ nDeq tr ∧ born a tr ≤ q + cap ∧
      ∃ pre, pre <+: tr ∧ Invoked pre a ∧ nDeq pre = q ∧ (IsEmpty pre ∨ OldestUncommitted pre))
  | .popHeld i ns => ∃ p, PopAt cap tr a p ∧ i = p % cap ∧ ns = enc w cap (p + cap) ∧
      ∃ v, s.val i = some v
  | .lenStart => Pend tr a .len
  | .lenHead t => Pend tr a .len ∧ (m →
      ∃ q c, t = tailWord w cap q c ∧ q ≤ nRes tr ∧ born a tr ≤ q ∧ (c = true → closedB tr = true))
  | .lenTail t h => Pend tr a .len ∧ (m →
      ∃ q c pre, t = tailWord w cap q c ∧ pre <+: tr ∧ Invoked pre a ∧ h = enc w cap (nDeq pre) ∧
        q ≤ nRes pre ∧ nRes pre ≤ nDeq pre + cap ∧ nDeq pre ≤ nRes pre ∧ born a tr ≤ q)
  | .closeStart p => Pend tr a (.close p)
  | .crashed _ => False

/-- The program counters of the operation that owns position `p` as a push. -/
def OwnsPush (w cap : Nat) (p : Nat) (pc : PC w) : Prop :=
  pc = .pushInit (enc w cap p) ∨ pc = .pushHeld (p % cap) (enc w cap p + 1#w) ∨
    pc = .pushPanicked (p % cap)

/-- The slot of a position that is reserved and not dequeued: published, or owned by its
push. -/
def Busy (w cap : Nat) (tr : Trace V) (s : State w V) (a : OpId) (p : Nat) : Prop :=
  (s.st (p % cap) = enc w cap p + 1#w ∧ ∃ v, s.val (p % cap) = some v ∧
      Event.commit a (p % cap) (some v) ∈ tr) ∨
  (s.st (p % cap) = enc w cap p ∧ OwnsPush w cap p (s.pc a) ∧ ¬ Committed tr a)

/-- The slot of a position that can be reserved soon: free, or still owned by the pop of the
previous lap. -/
def Free (w cap : Nat) (tr : Trace V) (s : State w V) (p : Nat) : Prop :=
  (s.st (p % cap) = enc w cap p ∧ Left cap tr s p) ∨
  (cap ≤ p ∧ s.st (p % cap) = enc w cap (p - cap) + 1#w ∧ ∃ b, (deqOps tr)[p - cap]? = some b ∧
      s.pc b = .popHeld (p % cap) (enc w cap p))

structure Inv (m : Prop) (w cap : Nat) (tr : Trace V) (s : State w V) : Prop where
  tail : s.tail = tailWord w cap (nRes tr) (closedB tr)
  head : s.head = enc w cap (nDeq tr)
  le : nDeq tr ≤ nRes tr
  ge : nRes tr ≤ nDeq tr + cap
  busy : ∀ p a, nDeq tr ≤ p → (resOps tr)[p]? = some a → Busy w cap tr s a p
  free : ∀ p, nRes tr ≤ p → p < nDeq tr + cap → Free w cap tr s p
  pcs : ∀ a, pcInv m w cap tr s a (s.pc a)

/-! ### Position-level description of a step -/

/-- Program counters that own no slot. -/
def NonOwner : PC w → Prop
  | .pushInit _ | .pushHeld _ _ | .pushPanicked _ | .popHeld _ _ => False
  | _ => True

/-- What is true when a call returns without having claimed anything. -/
def RetOk (m : Prop) (cap : Nat) (tr : Trace V) (a : OpId) : Ret → Prop
  | .full => Event.invoke a .push ∈ tr ∧ nRes tr = nDeq tr + cap ∧ (m → OpenAt tr a)
  | .empty => Event.invoke a .pop ∈ tr ∧ (m →
      ∃ pre, pre <+: tr ∧ Invoked pre a ∧
        ((IsEmpty pre ∧ (¬ Closed pre ∨ nRes pre < nRes tr)) ∨ OldestUncommitted pre))
  | .closed => Closed tr ∧ (Event.invoke a .push ∈ tr ∨
      (Event.invoke a .pop ∈ tr ∧ nDeq tr = nRes tr))
  | .len n => Event.invoke a .len ∈ tr ∧ n ≤ cap ∧ (m →
      ∃ pre, pre <+: tr ∧ Invoked pre a ∧ (¬ Closed tr → nRes pre = nDeq pre + n))
  | .closeRet b => Event.invoke a (.close true) ∈ tr ∧ b = false
  | _ => False

inductive StepR (m : Prop) (w cap : Nat) (tr : Trace V) (s : State w V) :
    State w V → List (Event V) → Prop where
  | invoke (a : OpId) (op : Op) (h : s.pc a = .idle) :
      StepR m w cap tr s (s.goto a (startPC op)) [.invoke a op]
  | silent (a : OpId) (pc' : PC w) (op : Op) (hp : Pend tr a op)
      (hn' : NonOwner pc') (h : pcInv m w cap tr s a pc') :
      StepR m w cap tr s (s.goto a pc') []
  | retn (a : OpId) (r : Ret) (op : Op) (hp : Pend tr a op)
      (hr : RetOk m cap tr a r) :
      StepR m w cap tr s (s.goto a .done) [.ret a r]
  | reserve (a : OpId) (hp : Pend tr a .push)
      (hc : closedB tr = false) (hlt : nRes tr < nDeq tr + cap)
      (hst : s.st (nRes tr % cap) = enc w cap (nRes tr)) :
      StepR m w cap tr s
        { s.goto a (.pushInit (enc w cap (nRes tr))) with tail := enc w cap (nRes tr + 1) }
        [.reserve a (nRes tr % cap)]
  | dequeue (a : OpId) (hp : Pend tr a .pop)
      (hlt : nDeq tr < nRes tr) (hst : s.st (nDeq tr % cap) = enc w cap (nDeq tr) + 1#w) :
      StepR m w cap tr s
        { s.goto a (.popHeld (nDeq tr % cap) (enc w cap (nDeq tr + cap))) with
          head := enc w cap (nDeq tr + 1) }
        [.dequeue a (nDeq tr % cap) (s.val (nDeq tr % cap)), .ret a .popped]
  | elem (a : OpId) (p : Nat) (v : V) (acc : Access V) (hpc : s.pc a = .pushInit (enc w cap p))
      (ho : PushAt tr a p) (hnr : ¬ Returned tr a)
      (hl : Left cap tr s p)
      (hacc : (p / cap % numGens w cap = 0 ∧ acc = .create v) ∨
        (p / cap % numGens w cap ≠ 0 ∧ acc = .recycle (s.val (p % cap)) v)) :
      StepR m w cap tr s
        ({ s with val := upd s.val (p % cap) (some v) }.goto a
          (.pushHeld (p % cap) (enc w cap p + 1#w)))
        [.access a (p % cap) acc, .ret a .pushed]
  | elemPanic0 (a : OpId) (p : Nat) (hpc : s.pc a = .pushInit (enc w cap p))
      (ho : PushAt tr a p) (hnr : ¬ Returned tr a) (hg : p / cap % numGens w cap = 0) :
      StepR m w cap tr s (s.goto a (.pushPanicked (p % cap))) [.ret a .panicked]
  | elemPanic1 (a : OpId) (p : Nat) (v : V) (hpc : s.pc a = .pushInit (enc w cap p))
      (ho : PushAt tr a p) (hnr : ¬ Returned tr a) (hg : p / cap % numGens w cap ≠ 0)
      (hl : Left cap tr s p) :
      StepR m w cap tr s
        ({ s with val := upd s.val (p % cap) (some v) }.goto a (.pushPanicked (p % cap)))
        [.access a (p % cap) (.recyclePanic (s.val (p % cap))), .ret a .panicked]
  | read (a : OpId) (i : Nat) (ns : BitVec w)
      (hpc : s.pc a = .pushHeld i ns ∨ s.pc a = .popHeld i ns) :
      StepR m w cap tr s s [.access a i (.read (s.val i))]
  | write (a : OpId) (i : Nat) (ns : BitVec w) (v : V)
      (hpc : s.pc a = .pushHeld i ns ∨ s.pc a = .popHeld i ns) :
      StepR m w cap tr s { s with val := upd s.val i (some v) } [.access a i (.write v)]
  | commit (a : OpId) (p : Nat) (hpc : s.pc a = .pushHeld (p % cap) (enc w cap p + 1#w))
      (ho : PushAt tr a p) :
      StepR m w cap tr s
        { s.goto a .done with st := upd s.st (p % cap) (enc w cap p + 1#w) }
        [.commit a (p % cap) (s.val (p % cap))]
  | release (a : OpId) (p : Nat) (hpc : s.pc a = .popHeld (p % cap) (enc w cap (p + cap)))
      (ho : PopAt cap tr a p) :
      StepR m w cap tr s
        { s.goto a .done with st := upd s.st (p % cap) (enc w cap (p + cap)) }
        [.release a (p % cap) (s.val (p % cap))]
  | close (a : OpId) (hp : Pend tr a (.close false)) :
      StepR m w cap tr s
        { s.goto a .done with tail := tailWord w cap (nRes tr) true }
        [.close a, .ret a (.closeRet (closedB tr = false))]

end Thingbuf
