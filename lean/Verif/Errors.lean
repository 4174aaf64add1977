import Verif.CoreProps
/-
The error types (/repo/src/mpsc/errors.rs, `Full` in /repo/src/lib.rs) and the functions that wrap
a failed reservation with the caller's value: C35, C37.
-/
namespace Thingbuf

/-- `TrySendError<T>` (/repo/src/mpsc/errors.rs lines 35-44). -/
inductive TrySendError (T : Type) where
  | full (v : T)
  | closed (v : T)
deriving DecidableEq, Repr

/-- `SendTimeoutError<T>` (/repo/src/mpsc/errors.rs lines 15-24). -/
inductive SendTimeoutError (T : Type) where
  | timeout (v : T)
  | closed (v : T)
deriving DecidableEq, Repr

/-- `Closed<T>` (/repo/src/mpsc/errors.rs line 84). -/
structure ClosedError (T : Type) where
  val : T
deriving DecidableEq, Repr

/-- `Full<T>` (/repo/src/lib.rs line 64). -/
structure FullError (T : Type) where
  val : T
deriving DecidableEq, Repr

/-- `Closed::into_inner` (/repo/src/mpsc/errors.rs lines 93-95). -/
def ClosedError.intoInner {T : Type} (e : ClosedError T) : T := e.val

namespace TrySendError
variable {T U : Type}

/-- `TrySendError::with_value` (/repo/src/mpsc/errors.rs lines 185-190). -/
def withValue (e : TrySendError Unit) (v : T) : TrySendError T :=
  match e with
  | .full () => .full v
  | .closed () => .closed v

/-- `TrySendError::is_full` (/repo/src/mpsc/errors.rs lines 196-198). -/
def isFull : TrySendError T → Bool
  | .full _ => true
  | _ => false

/-- `TrySendError::is_closed` (/repo/src/mpsc/errors.rs lines 210-212), as written: it matches `Full`. -/
def isClosed : TrySendError T → Bool
  | .full _ => true
  | _ => false

/-- `TrySendError::into_inner` (/repo/src/mpsc/errors.rs lines 218-223). -/
def intoInner : TrySendError T → T
  | .full v => v
  | .closed v => v

end TrySendError

namespace SendTimeoutError
variable {T : Type}

/-- `SendTimeoutError::with_value` (/repo/src/mpsc/errors.rs lines 117-122). -/
def withValue (e : SendTimeoutError Unit) (v : T) : SendTimeoutError T :=
  match e with
  | .timeout () => .timeout v
  | .closed () => .closed v

/-- `SendTimeoutError::is_timeout` (/repo/src/mpsc/errors.rs lines 129-131). -/
def isTimeout : SendTimeoutError T → Bool
  | .timeout _ => true
  | _ => false

/-- `SendTimeoutError::is_closed` (/repo/src/mpsc/errors.rs lines 143-145), as written: it matches
`Timeout`. -/
def isClosed : SendTimeoutError T → Bool
  | .timeout _ => true
  | _ => false

/-- `SendTimeoutError::into_inner` (/repo/src/mpsc/errors.rs lines 151-156). -/
def intoInner : SendTimeoutError T → T
  | .timeout v => v
  | .closed v => v

end SendTimeoutError

/-! ### C37 -/

/-- **C37**, the part that holds: `is_full` and `is_timeout` are exact. Missing: `is_closed` of both
types, which `C37_is_closed_inverted` shows to be wrong. -/
theorem C37_predicates_partial {T : Type} :
    (∀ e : TrySendError T, e.isFull = true ↔ ∃ v, e = .full v) ∧
    (∀ e : SendTimeoutError T, e.isTimeout = true ↔ ∃ v, e = .timeout v) := by
  constructor
  · intro e; cases e <;> simp [TrySendError.isFull]
  · intro e; cases e <;> simp [SendTimeoutError.isTimeout]

/-- **C37** is violated: `is_closed` answers `false` for every `Closed` error and `true` for every other
one, for both types. -/
theorem C37_is_closed_inverted {T : Type} :
    (∀ e : TrySendError T, e.isClosed = true ↔ ¬ ∃ v, e = .closed v) ∧
    (∀ e : SendTimeoutError T, e.isClosed = true ↔ ¬ ∃ v, e = .closed v) := by
  constructor
  · intro e; cases e <;> simp [TrySendError.isClosed]
  · intro e; cases e <;> simp [SendTimeoutError.isClosed]

example : (TrySendError.closed 5).isClosed = false ∧ (TrySendError.full 5).isClosed = true ∧
    (TrySendError.full 5).isFull = true := ⟨rfl, rfl, rfl⟩

/-! ### C35 -/

/-- How `push_ref` ends, as a `Result` (`none`: the call panics or has another kind of result). /repo/src/lib.rs
lines 177-281. -/
def pushRefResult : Ret → Option (Except (TrySendError Unit) Unit)
  | .pushed => some (.ok ())
  | .full => some (.error (.full ()))
  | .closed => some (.error (.closed ()))
  | _ => none

/-- `ChannelCore::try_send` (/repo/src/mpsc.rs lines 366-377) given the outcome of `try_send_ref`. In
the success case the value is written to the slot (an `Act.write` of the machine). -/
def trySendResult {T : Type} (r : Except (TrySendError Unit) Unit) (val : T) : Except (TrySendError T) Unit :=
  match r with
  | .ok () => .ok ()
  | .error e => .error (e.withValue val)

/-- `ThingBuf::push_ref` (/repo/src/thingbuf.rs lines 388-395): `none` is the `unreachable!()`. -/
def thingbufPushRef (r : Except (TrySendError Unit) Unit) : Option (Except (FullError Unit) Unit) :=
  match r with
  | .ok () => some (.ok ())
  | .error (.full ()) => some (.error ⟨()⟩)
  | .error _ => none

/-- `ThingBuf::push` (/repo/src/thingbuf.rs lines 415-423). -/
def thingbufPush {T : Type} (r : Except (FullError Unit) Unit) (val : T) : Except (FullError T) Unit :=
  match r with
  | .error _ => .error ⟨val⟩
  | .ok () => .ok ()

/-- `Sender::send` (/repo/src/mpsc/async_impl.rs lines 185-193 and 873-881, /repo/src/mpsc/blocking.rs
lines 344-352 and 1040-1048) given the outcome of `send_ref`. -/
def sendResult {T : Type} (r : Except (ClosedError Unit) Unit) (val : T) : Except (ClosedError T) Unit :=
  match r with
  | .error _ => .error ⟨val⟩
  | .ok () => .ok ()

/-- `Sender::send_timeout` (/repo/src/mpsc/blocking.rs lines 462-470 and 1161-1169) given the outcome
of `send_ref_timeout`. -/
def sendTimeoutResult {T : Type} (r : Except (SendTimeoutError Unit) Unit) (val : T) :
    Except (SendTimeoutError T) Unit :=
  match r with
  | .error e => .error (e.withValue val)
  | .ok () => .ok ()

/-- **C35** A failed `try_send` gives back the value, with the variant that says why, and the
operation has no effect: it never reserves or touches a slot, before or after its return, so nothing is queued.
For every run, every push operation `a` that returns `full` or `closed`. -/
theorem C35_failed_send {T : Type} {w cap : Nat} {V : Type} {tr : Trace V} {s : State w V} (h : Run w cap tr s)
    {a : OpId} {r : Ret} (hr : Event.ret a r ∈ tr) (hpush : Event.invoke a .push ∈ tr)
    {x : Except (TrySendError Unit) Unit} (hx : pushRefResult r = some x) (hne : x ≠ .ok ()) (val : T) :
    (∃ e, trySendResult x val = .error e ∧ e.intoInner = val ∧
      ((∃ u, e = .full u) ↔ r = .full) ∧ ((∃ u, e = .closed u) ↔ r = .closed)) ∧
    a ∉ resOps tr ∧ (∀ i k, Event.access a i k ∉ tr) ∧ (∀ i v, Event.commit a i v ∉ tr) := by
  have hfc : r = .full ∨ r = .closed := by
    cases r <;> simp [pushRefResult] at hx <;> simp_all
  have hres : a ∉ resOps tr := by
    intro hres
    obtain ⟨j, hm⟩ := mem_resOps.1 hres
    obtain ⟨pre, post, htr⟩ := mem_split hr
    have he := h.evOk htr
    have hnp : a ∉ resOps pre := by
      rcases hfc with rfl | rfl
      · exact he.2.2.1
      · exact he.2.2.1
    rw [htr] at hm
    rcases List.mem_append.1 hm with hm | hm
    · exact hnp (mem_resOps.2 ⟨_, hm⟩)
    · simp only [List.mem_cons, reduceCtorEq, false_or] at hm
      obtain ⟨y1, y2, rfl⟩ := mem_split hm
      have he' := h.evOk (pre := pre ++ .ret a r :: y1) (e := .reserve a j) (post := y2)
        (by rw [htr]; simp)
      exact he'.1.nret ⟨r, by simp⟩
  have hdeq : ∀ i v, Event.dequeue a i v ∉ tr := by
    intro i v hm
    obtain ⟨pre, post, htr⟩ := mem_split hm
    have := (h.evOk htr).1.inv
    have := h.invoke_unique hpush (by rw [htr]; exact List.mem_append_left _ this)
    cases this
  have hown : ∀ {i} {e : Event V}, e ∈ tr → e.actor = a →
      (∀ pre post, tr = pre ++ e :: post → Holds pre a i) → False := by
    intro i e hm _ hh
    obtain ⟨pre, post, htr⟩ := mem_split hm
    rcases (hh pre post htr).1 with h1 | ⟨v, h1⟩
    · exact hres (mem_resOps.2 ⟨i, by rw [htr]; exact List.mem_append_left _ h1⟩)
    · exact hdeq i v (by rw [htr]; exact List.mem_append_left _ h1)
  have h5 := C05_exclusive h
  refine ⟨?_, hres, ?_, ?_⟩
  · rcases hfc with rfl | rfl
    · simp [pushRefResult] at hx; subst hx
      exact ⟨_, rfl, rfl, by simp [TrySendError.withValue]⟩
    · simp [pushRefResult] at hx; subst hx
      exact ⟨_, rfl, rfl, by simp [TrySendError.withValue]⟩
  · intro i k hm
    exact hown (i := i) hm rfl (fun pre post htr => h5.2.1 pre a i k post htr)
  · intro i v hm
    exact hown (i := i) hm rfl (fun pre post htr => h5.2.2.1 pre a i v post htr)

example : ∃ s, Run 8 2 demoTrace s ∧ Event.ret 4 .full ∈ demoTrace ∧ Event.invoke 4 .push ∈ demoTrace ∧
    Event.ret 7 .closed ∈ demoTrace ∧ Event.invoke 7 .push ∈ demoTrace ∧
    pushRefResult .full = some (.error (.full ())) ∧ pushRefResult .closed = some (.error (.closed ())) :=
  let ⟨s, h⟩ := demoRun
  ⟨s, h, by decide, by decide, by decide, by decide, rfl, rfl⟩

/-- **C35** for the other entry points: whatever the wrapped call returned, an error carries the
caller's value, and the variant is the one of the wrapped call; `Ok` is not turned into an error. -/
theorem C35_value_back {T : Type} (val : T) :
    (∀ r, thingbufPush r val = .error ⟨val⟩ ∨ (r = .ok () ∧ thingbufPush r val = .ok ())) ∧
    (∀ r, (r = .ok () ∧ sendResult r val = .ok ()) ∨
      ∃ e, r ≠ .ok () ∧ sendResult r val = .error e ∧ e.intoInner = val) ∧
    (∀ r, (r = .ok () ∧ sendTimeoutResult r val = .ok ()) ∨
      ∃ e, sendTimeoutResult r val = .error e ∧ e.intoInner = val ∧
        (e = .timeout val ↔ r = .error (.timeout ())) ∧ (e = .closed val ↔ r = .error (.closed ()))) := by
  refine ⟨?_, ?_, ?_⟩
  · rintro (e | ⟨⟨⟩⟩)
    · exact .inl rfl
    · exact .inr ⟨rfl, rfl⟩
  · rintro (e | ⟨⟨⟩⟩)
    · exact .inr ⟨_, by simp, rfl, rfl⟩
    · exact .inl ⟨rfl, rfl⟩
  · rintro ((⟨⟨⟩⟩ | ⟨⟨⟩⟩) | ⟨⟨⟩⟩)
    · exact .inr ⟨_, rfl, rfl, by simp [SendTimeoutError.withValue]⟩
    · exact .inr ⟨_, rfl, rfl, by simp [SendTimeoutError.withValue]⟩
    · exact .inl ⟨rfl, rfl⟩

end Thingbuf
