import Verif.TraceFacts

/-!
# Capacity zero (C44)

Which constructors reject capacity 0, and what happens on a queue of capacity 0 that a constructor let
through.
-/

namespace Thingbuf

/-- The public constructors (those named `new` forward to the corresponding `with_recycle`). Each constructor cites
its lines in /repo. -/
inductive Ctor where
  /-- `ThingBuf::with_recycle`, /repo/src/thingbuf.rs lines 305-312 -/
  | thingbuf
  /-- `mpsc::with_recycle`, /repo/src/mpsc/async_impl.rs lines 37-49 -/
  | asyncChannel
  /-- `mpsc::blocking::with_recycle`, /repo/src/mpsc/blocking.rs lines 37-53 -/
  | blockingChannel
  /-- `StaticThingBuf::with_recycle`, /repo/src/static_thingbuf.rs lines 222-228 -/
  | staticThingbuf
  /-- `mpsc::StaticChannel::with_recycle`, /repo/src/mpsc/async_impl.rs lines 700-716 -/
  | staticAsync
  /-- `mpsc::blocking::StaticChannel::with_recycle`, /repo/src/mpsc/blocking.rs lines 185-201 -/
  | staticBlocking
  deriving DecidableEq, Repr

/-- What a constructor does with a capacity: `none` if its `assert!(capacity > 0)` panics, else a queue of
that capacity in the initial state.  The static constructors contain no assertion. The lines cited at `Ctor`;
/repo/src/thingbuf.rs line 306 and its counterparts. -/
def Ctor.make (w : Nat) (V : Type) : Ctor → Nat → Option (Nat × State w V)
  | .thingbuf, cap | .asyncChannel, cap | .blockingChannel, cap =>
    if cap > 0 then some (cap, State.init w V) else none
  | .staticThingbuf, cap | .staticAsync, cap | .staticBlocking, cap => some (cap, State.init w V)

/-- Whether a constructor allocates its slots on the heap. `Slot::make_boxed_array` and `make_static_array`,
/repo/src/lib.rs lines 519-546. -/
def Ctor.heap : Ctor → Bool
  | .thingbuf | .asyncChannel | .blockingChannel => true
  | _ => false

/-- **C44**, the part that holds: the heap-allocating constructors reject capacity 0 and accept every other
capacity.  Missing: the static constructors, see `C44_static_zero_out_of_bounds`. -/
theorem C44_heap_rejects_zero_partial (w : Nat) (V : Type) (k : Ctor) (hk : k.heap = true) (cap : Nat) :
    k.make w V cap = none ↔ cap = 0 := by
  cases k <;> simp_all [Ctor.heap, Ctor.make] <;> omega

/-- **C44** is violated by the static constructors: they accept capacity 0, and then the first push and
the first pop index the empty slot array out of bounds (in a debug build a panic of the `debug_assert!`,
in a release build undefined behaviour). -/
theorem C44_static_zero_out_of_bounds (k : Ctor) (hk : k.heap = false) :
    k.make 64 Nat 0 = some (0, State.init 64 Nat) ∧
    (∃ tr s, Exec 64 0 (V := Nat) tr s ∧ tr = [.invoke 0 .push, .ret 0 (.crash .oob)]) ∧
    (∃ tr s, Exec 64 0 (V := Nat) tr s ∧ tr = [.invoke 0 .pop, .ret 0 (.crash .oob)]) := by
  refine ⟨by cases k <;> simp_all [Ctor.heap, Ctor.make], ?_, ?_⟩
  · have h : (runActs 0 (State.init 64 Nat) [.invoke 0 .push, .run 0, .run 0]).map Prod.snd =
        some [.invoke 0 .push, .ret 0 (.crash .oob)] := by decide +kernel
    obtain ⟨⟨s, tr⟩, h1, h2⟩ := Option.map_eq_some_iff.1 h
    exact ⟨tr, s, by simpa using Exec.init.of_runActs h1, h2⟩
  · have h : (runActs 0 (State.init 64 Nat) [.invoke 0 .pop, .run 0, .run 0]).map Prod.snd =
        some [.invoke 0 .pop, .ret 0 (.crash .oob)] := by decide +kernel
    obtain ⟨⟨s, tr⟩, h1, h2⟩ := Option.map_eq_some_iff.1 h
    exact ⟨tr, s, by simpa using Exec.init.of_runActs h1, h2⟩

example : Ctor.staticThingbuf.heap = false ∧ Ctor.thingbuf.heap = true := ⟨rfl, rfl⟩

end Thingbuf
