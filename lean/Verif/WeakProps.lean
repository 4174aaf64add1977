import Verif.WeakDemo
import Verif.WeakSpec

/-!
# The channel on the memory model: a sender that waits has something to wait for

C63. This is C32 for the memory orderings that are written in the source, instead of sequential consistency.
-/

namespace Thingbuf.Chan

variable {w : Nat} {V : Type} {c : Config Nat} {tr : Trace V Nat} {xtr : List (RA.REv V)} {s : WState w V}

/-- An execution with the memory orderings of the source, of a channel whose capacity fits into the words, in a `std` build. -/
structure WRun (c : Config Nat) (w : Nat) {V : Type} (tr : Trace V Nat) (xtr : List (RA.REv V)) (s : WState w V) : Prop where
  sized : WellSized w c.cap
  std : c.cell.std = true
  exec : WExec .source .source c w tr xtr s

theorem WRun.mem (h : WRun c w tr xtr s) : RA.XRun c.cell w c.cap xtr s.mem := ⟨h.sized, h.std, h.exec.mem⟩

theorem WRun.facts (h : WRun c w tr xtr s) : Facts False w c.cap (coreOf tr) := by
  rw [h.exec.evs.1]; exact h.mem.facts

theorem WRun.ordered (h : WRun c w tr xtr s) (ho : DropsOrdered s tr) (hca : ∀ k, .api (.cancel k) ∉ tr) : Queue.OneAfterTheOther s.queue (queueOf tr) := by
  refine ⟨fun pre o post o' htr hp => ?_, fun n _ hr => hca n (h.exec.ctl.1.rem_cancel (mem_queueOf.1 hr))⟩
  obtain ⟨p, q, h1, h2, -⟩ := queueOf_split htr
  refine ho p o q o' h1 ?_
  rw [← h2] at hp
  exact mem_queueOf.1 hp

/-- **C63** Nothing is half way through, send call `k` is asleep; then the channel holds a message (or its `RecvRef` has not been dropped, or its `SendRef`). The `Receiver` has
not been dropped, the `RecvRef`s are dropped in order, and no send is cancelled or times out. -/
theorem C63_sleeper_has_message (h : WRun c w tr xtr s) {k : Nat} (hk : Asleep tr k) (hset : Settled tr) (hrx : ∀ pan, .api (.dropRx pan) ∉ tr)
    (ho : DropsOrdered s tr) (hca : ∀ k, .api (.cancel k) ∉ tr) (hto : ∀ k, .api (.retSend k .timeout) ∉ tr) : ∃ a, InChannel tr a :=
  h.exec.ctl.1.has_message hset hrx hca hto h.facts h.exec.loads (h.ordered ho hca) hk

/-- **C63** for the blocking channel, where a send cannot be cancelled. -/
theorem C63_blocking (h : WRun c w tr xtr s) (hb : c.blocking = true) {k : Nat} (hk : Asleep tr k) (hset : Settled tr) (hrx : ∀ pan, .api (.dropRx pan) ∉ tr)
    (ho : DropsOrdered s tr) (hto : ∀ k, .api (.retSend k .timeout) ∉ tr) : ∃ a, InChannel tr a :=
  C63_sleeper_has_message h hk hset hrx ho (h.exec.ctl.1.no_cancel hb) hto

/-- **C63** for the async channel, where no send times out. -/
theorem C63_async (h : WRun c w tr xtr s) (hb : c.blocking = false) {k : Nat} (hk : Asleep tr k) (hset : Settled tr) (hrx : ∀ pan, .api (.dropRx pan) ∉ tr)
    (ho : DropsOrdered s tr) (hca : ∀ k, .api (.cancel k) ∉ tr) : ∃ a, InChannel tr a :=
  C63_sleeper_has_message h hk hset hrx ho hca (h.exec.ctl.1.no_timeout hb)

/-! ### Concrete cases -/

/-- A way to check `DropsOrdered`: no `notify` before this one, or all are known. -/
def orderedB (bs : List (List Queue.Tid)) : Trace Nat Nat → List Nat → Bool
  | [], _ => true
  | .queue (.callNotify o) :: l, seen => (match bs[o]? with | some b => seen.all fun o' => decide (.op o' ∈ b) | none => false) && orderedB bs l (o :: seen)
  | _ :: l, seen => orderedB bs l seen

theorem orderedB_imp {bs : List (List Queue.Tid)} {f : Nat → List Queue.Tid} {n : Nat} (hf : (List.range n).map f = bs) {l : Trace Nat Nat} {seen : List Nat}
    (h : orderedB bs l seen = true) : ∀ pre o post, l = pre ++ .queue (.callNotify o) :: post → (∀ o' ∈ seen, .op o' ∈ f o) ∧
      ∀ o', .queue (.callNotify o') ∈ pre → .op o' ∈ f o := by
  induction l generalizing seen with
  | nil => intro pre o post hl; cases pre <;> cases hl
  | cons e l ih =>
    intro pre o post hl
    cases pre with
    | nil =>
      cases hl
      refine ⟨fun o' ho' => ?_, by simp⟩
      simp only [orderedB, Bool.and_eq_true] at h
      have h1 := h.1
      split at h1
      · rename_i b hb
        have h2 := List.all_eq_true.1 h1 _ ho'
        rw [← hf, List.getElem?_map] at hb
        obtain ⟨i, h3, h4⟩ := Option.map_eq_some_iff.1 hb
        obtain ⟨h5, h6⟩ := List.getElem?_eq_some_iff.1 h3
        simp at h6
        subst h6; subst h4
        exact of_decide_eq_true h2
      · cases h1
    | cons x pre =>
      simp only [List.cons_append, List.cons.injEq] at hl
      obtain ⟨rfl, rfl⟩ := hl
      by_cases hx : ∃ o', e = .queue (.callNotify o')
      · obtain ⟨o', rfl⟩ := hx
        simp only [orderedB, Bool.and_eq_true] at h
        obtain ⟨h1, h2⟩ := ih h.2 pre o post rfl
        refine ⟨fun y hy => h1 y (by simp [hy]), fun y hy => ?_⟩
        simp at hy
        rcases hy with rfl | hy
        · exact h1 _ (by simp)
        · exact h2 y hy
      · have h0 : orderedB bs (pre ++ .queue (.callNotify o) :: post) seen = true := by
          unfold orderedB at h
          split at h
          · cases ‹_ :: _ = []›
          · rename_i o' _ _ heq; cases heq; rename_i o'; exact absurd ⟨o', rfl⟩ hx
          · rename_i heq; cases heq; exact h
        obtain ⟨h1, h2⟩ := ih h0 pre o post rfl
        refine ⟨h1, fun y hy => ?_⟩
        simp at hy
        rcases hy with hy | hy
        · exact absurd ⟨y, hy.symm⟩ hx
        · exact h2 y hy

/-- The `Receiver` is not dropped, and no send is cancelled or times out. -/
def plainB (tr : Trace Nat Nat) : Bool := tr.all fun | .api (.dropRx _) | .api (.cancel _) | .api (.retSend _ .timeout) => false | _ => true

theorem plainB_imp {tr : Trace Nat Nat} (h : plainB tr = true) :
    (∀ pan, .api (.dropRx pan) ∉ tr) ∧ (∀ k, .api (.cancel k) ∉ tr) ∧ ∀ k, .api (.retSend k .timeout) ∉ tr := by
  rw [plainB, List.all_eq_true] at h
  exact ⟨fun _ hp => by simpa using h _ hp, fun _ hp => by simpa using h _ hp, fun _ hp => by simpa using h _ hp⟩

/-- C63: the hypotheses are met by `wSleepDemo`, in which two drops wake a sender each, the second one by a thread that knows of the first. -/
example (blocking : Bool) : ∃ (tr : Trace Nat Nat) (xtr : List (RA.REv Nat)) (s : WState 8 Nat), WRun (demoC 1 blocking) 8 tr xtr s ∧ Asleep tr 4 ∧ Settled tr ∧
    (∀ pan, .api (.dropRx pan) ∉ tr) ∧ DropsOrdered s tr ∧ (∀ k, .api (.cancel k) ∉ tr) ∧ (∀ k, .api (.retSend k .timeout) ∉ tr) ∧
    .queue (.wake 0 2 7) ∈ tr ∧ .queue (.wake 1 3 8) ∈ tr := by
  obtain ⟨s, hs, hk⟩ := WExec.of_script (c := demoC 1 blocking) (l := wSleepDemo) 2 (by cases blocking <;> decide +kernel) (by cases blocking <;> decide +kernel)
  have h1 := plainB_imp (tr := (wTr (demoC 1 blocking) wSleepDemo).1) (by cases blocking <;> decide +kernel)
  have h2 := orderedB_imp hk (l := (wTr (demoC 1 blocking) wSleepDemo).1) (seen := []) (by cases blocking <;> decide +kernel)
  exact ⟨_, _, s, ⟨by cases blocking <;> decide, rfl, hs⟩, asleepB_imp (by cases blocking <;> decide +kernel), settledB_imp (by cases blocking <;> decide +kernel), h1.1,
    fun pre o post o' htr ho => (h2 pre o post htr).2 o' ho, h1.2.1, h1.2.2, by cases blocking <;> decide +kernel, by cases blocking <;> decide +kernel⟩

/-- **C63 needs the order of the drops**, in a release build: in `wLostDemo` the `RecvRef`s are dropped one after the other, no drop begins before the one before it has ended, and
no send is cancelled or times out. But the last drop is made by a thread that does not know of the others, and it throws a wake-up away (`WaitQueue::notify`,
`src/wait/queue.rs:375-420`, trusts the outdated value that it has read): call 4 sleeps although the channel is empty, every other call is over and nothing is half way through. -/
theorem C63_false_if_drops_unordered (blocking : Bool) : ∃ (tr : Trace Nat Nat) (xtr : List (RA.REv Nat)) (s : WState 8 Nat), WRun (releaseC 2 blocking) 8 tr xtr s ∧
    Asleep tr 4 ∧ Settled tr ∧ (∀ a, ¬ InChannel tr a) ∧ OneDrop tr ∧ (∀ pan, .api (.dropRx pan) ∉ tr) ∧ (∀ k, .api (.cancel k) ∉ tr) ∧
    ∀ k, .api (.retSend k .timeout) ∉ tr := by
  obtain ⟨s, hs, -⟩ := WExec.of_script (c := releaseC 2 blocking) (l := wLostDemo) 3 (by cases blocking <;> decide +kernel) (by cases blocking <;> decide +kernel)
  have h1 := plainB_imp (tr := (wTr (releaseC 2 blocking) wLostDemo).1) (by cases blocking <;> decide +kernel)
  exact ⟨_, _, s, ⟨by cases blocking <;> decide, rfl, hs⟩, asleepB_imp (by cases blocking <;> decide +kernel), settledB_imp (by cases blocking <;> decide +kernel),
    emptyB_imp (by cases blocking <;> decide +kernel), oneDropB_imp (p := []) (o := none) (by cases blocking <;> decide +kernel) (by simp), h1⟩

end Thingbuf.Chan
