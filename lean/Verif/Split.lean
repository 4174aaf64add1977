/-
`StaticChannel::split`/`try_split` (/repo/src/mpsc/async_impl.rs lines 723-756,
/repo/src/mpsc/blocking.rs lines 207-240): C39.
-/
namespace Thingbuf.Split

/-- `is_split` and, for every caller, whether its call is in progress. `is_split` of /repo/src/mpsc/async_impl.rs
line 649 and /repo/src/mpsc/blocking.rs line 125. -/
structure State where
  isSplit : Bool
  /-- calls in progress (invoked, CAS not done) -/
  calling : Nat → Bool
  /-- calls that were made -/
  used : Nat → Bool

/-- `StaticChannel::with_recycle` (async_impl.rs line 711, blocking.rs line 195). -/
def State.init : State := ⟨false, fun _ => false, fun _ => false⟩

/-- Observable events: a call, and its result (`true`: `Some((tx, rx))`). /repo/src/mpsc/async_impl.rs lines
723-756, /repo/src/mpsc/blocking.rs lines 207-240. -/
inductive Event where
  | call (a : Nat)
  | ret (a : Nat) (some : Bool)
deriving DecidableEq, Repr

/-- `call a` : call number `a` starts; `run a`: it performs the CAS (async_impl.rs lines 742-744,
blocking.rs lines 226-228) and returns. `split` is `try_split().expect(..)`: it panics where `try_split`
returns `None`. -/
inductive Act where
  | call (a : Nat)
  | run (a : Nat)
deriving DecidableEq, Repr

/-- Scaffolding of the model, no counterpart in the source. -/
def set (f : Nat → Bool) (a : Nat) (b : Bool) : Nat → Bool := fun x => if x = a then b else f x

/-- The machine. /repo/src/mpsc/async_impl.rs lines 738-756, /repo/src/mpsc/blocking.rs lines 222-240. -/
def step (s : State) : Act → Option (State × List Event)
  | .call a =>
    if s.used a then none
    else some ({ s with calling := set s.calling a true, used := set s.used a true }, [.call a])
  | .run a =>
    if s.calling a then
      if s.isSplit = false then some ({ s with isSplit := true, calling := set s.calling a false }, [.ret a true])
      else some ({ s with calling := set s.calling a false }, [.ret a false])
    else none

/-- Scaffolding of the model, no counterpart in the source: concurrent calls of the functions cited at `step`. -/
inductive Exec : List Event → State → Prop where
  | init : Exec [] State.init
  | step {tr s s' act evs} : Exec tr s → step s act = some (s', evs) → Exec (tr ++ evs) s'

/-- The results, in the order in which they were decided. Scaffolding of the model, no counterpart in the source. -/
def results (tr : List Event) : List Bool := tr.filterMap fun | .ret _ b => some b | _ => none

theorem Exec.inv {tr : List Event} {s : State} (h : Exec tr s) :
    (s.isSplit = false → results tr = []) ∧ (s.isSplit = true → ∃ n, results tr = true :: List.replicate n false) := by
  induction h with
  | init => simp [State.init, results]
  | @step tr s s' act evs _ hs ih =>
    cases act with
    | call a =>
      simp only [Split.step] at hs
      split at hs
      · cases hs
      · cases hs; simpa [results] using ih
    | run a =>
      simp only [Split.step] at hs
      split at hs
      · split at hs
        · rename_i hf
          cases hs
          refine ⟨fun h => (by simp at h), fun _ => ⟨0, ?_⟩⟩
          have := ih.1 hf
          unfold results at this ⊢
          rw [List.filterMap_append, this]; rfl
        · rename_i hf
          cases hs
          have ht : s.isSplit = true := by simpa using hf
          refine ⟨fun h => by simp [ht] at h, fun _ => ?_⟩
          obtain ⟨n, hn⟩ := ih.2 ht
          refine ⟨n + 1, ?_⟩
          unfold results at hn ⊢
          rw [List.filterMap_append, hn, List.replicate_succ']; rfl
      · cases hs

/-- **C39** Of any number of concurrent or successive calls, exactly the first to be decided gets the
pair, and every other call fails: the results in order are `true, false, false, ...`. -/
theorem C39_split_once {tr : List Event} {s : State} (h : Exec tr s) :
    results tr = [] ∨ ∃ n, results tr = true :: List.replicate n false := by
  cases hs : s.isSplit with
  | false => exact .inl (h.inv.1 hs)
  | true => exact .inr (h.inv.2 hs)

theorem results_append (l l' : List Event) : results (l ++ l') = results l ++ results l' := by
  simp [results]

/-- **C39** in terms of the pairs handed out: two calls that both returned a pair are the same call
(call numbers are not reused). -/
theorem C39_one_pair {tr : List Event} {s : State} (h : Exec tr s) {a b : Nat} (ha : .ret a true ∈ tr)
    (hb : .ret b true ∈ tr) : a = b := by
  have hc : (results tr).count true ≤ 1 := by
    rcases C39_split_once h with h | ⟨n, h⟩ <;> rw [h]
    · simp
    · simp [List.count_cons, List.count_replicate]
  obtain ⟨l1, l2, rfl⟩ := List.append_of_mem ha
  by_cases hab : a = b
  · exact hab
  · exfalso
    rw [results_append, show results (.ret a true :: l2) = true :: results l2 from rfl, List.count_append,
      List.count_cons_self] at hc
    have key : ∀ l : List Event, Event.ret b true ∈ l → 0 < (results l).count true := by
      intro l hl
      exact List.count_pos_iff.2 (List.mem_filterMap.2 ⟨_, hl, rfl⟩)
    rcases List.mem_append.1 hb with hb | hb
    · have := key l1 hb; omega
    · rcases List.mem_cons.1 hb with hb | hb
      · cases hb; exact hab rfl
      · have := key l2 hb; omega

/-- Run a list of actions (for concrete cases). Scaffolding of the model, no counterpart in the source. -/
def runActs : State → List Act → Option (State × List Event)
  | s, [] => some (s, [])
  | s, act :: acts => match step s act with
    | none => none
    | some (s1, e1) => match runActs s1 acts with
      | none => none
      | some (s2, e2) => some (s2, e1 ++ e2)

/-- Three overlapping calls; the one that started last wins. -/
example : (runActs State.init [.call 0, .call 1, .call 2, .run 2, .run 0, .run 1]).map Prod.snd =
    some [.call 0, .call 1, .call 2, .ret 2 true, .ret 0 false, .ret 1 false] := by decide

end Thingbuf.Split
