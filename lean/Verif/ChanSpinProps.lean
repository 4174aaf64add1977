import Verif.ChanSpin
import Verif.ChanDemo

/-!
# The channel: a blocking send that finds the channel full

C46. The property is false of `src/mpsc/blocking.rs`: a call whose node was dequeued once never goes back to the wait queue.
-/

namespace Thingbuf.Chan

variable {w : Nat} {V W : Type} {c : Config W} {tr : Trace V W} {s : State w V W}

/-- **C46**, the part that holds: let `a` and `b` be successive attempts of a blocking send call, that is, `a` found the channel full. Unless the call was already
notified before `a`, between the two either `start_wait` told the call that a notification had been stored for it, or the call slept, and a notification took it from
the wait queue. (Missing: the same after the call has been notified once; this is false, see below.) -/
theorem C46_waits_when_full_partial (h : Exec c tr s) (hb : c.blocking = true) {k : Nat} {a b : OpId} {pre mid post : Trace V W}
    (htr : tr = pre ++ .api (.attempt k a) :: (mid ++ .api (.attempt k b) :: post)) (hm : ∀ x, .api (.attempt k x) ∉ mid)
    (hn : .queue (.retCont k .notified) ∉ pre) :
    .queue (.retStart k .notified) ∈ mid ∨
      (.api (.sleep k) ∈ mid ∧ ∃ o, .queue (.deq o k) ∈ mid ∧ .queue (.callNotify o) ∈ pre ++ mid) := by
  rcases h.between hb htr hm with h1 | ⟨h1, h2 | h2⟩
  · exact .inl h1
  · exact absurd h2 hn
  · exact .inr h2

/-- **C46**, why the rest fails: once `continue_wait` has told a blocking send call that it was notified, the call never sleeps again, and never returns to
the wait queue. -/
theorem C46_never_waits_again (h : Exec c tr s) (hb : c.blocking = true) {k : Nat} {pre post : Trace V W}
    (htr : tr = pre ++ .queue (.retCont k .notified) :: post) : .api (.sleep k) ∉ post ∧ ∀ v, .queue (.enq k v) ∉ post :=
  ⟨h.never_sleeps hb htr, (h.spinning hb htr).2⟩

/-- **C46**, the busy loop: a blocking send call that was notified, attempts to send and finds the channel full can go on for ever, asking whether it was notified (yes), and
attempting again, with nothing else happening. (`spinRound` lists the events of one round.) -/
theorem C46_busy_loop {a : OpId} (h : Run c (tr ++ [.core (.ret a .full)]) s) (hb : c.blocking = true) {k : Nat}
    (ha : .api (.attempt k a) ∈ tr) (hn : .queue (.retCont k .notified) ∈ tr) (hc : ¬ Closed (coreOf tr))
    (hf : nRes (coreOf tr) = nDeq (coreOf tr) + c.cap) (hh : ¬ ∃ b, Holds (coreOf tr) b (nRes (coreOf tr) % c.cap)) (v : W) (n : Nat) :
    ∃ (as : List OpId) (s' : State w V W), as.length = n ∧ Run c (tr ++ [.core (.ret a .full)] ++ as.flatMap (spinRound k v)) s' := by
  have hcore : ∀ as : List OpId, ∃ l, coreOf (tr ++ [.core (.ret a .full)] ++ as.flatMap (spinRound k v)) = coreOf tr ++ l ∧
      ∀ e ∈ l, (∃ b r, e = .ret b r) ∨ ∃ b op, e = .invoke b op := by
    intro as
    refine ⟨.ret a .full :: coreOf (as.flatMap (spinRound k v) : Trace V W), ?_, ?_⟩
    · rw [coreOf_append, coreOf_append]; simp [coreOf]
    · intro e he
      rcases List.mem_cons.1 he with rfl | he
      · exact .inl ⟨_, _, rfl⟩
      · rw [mem_coreOf] at he
        obtain ⟨b, -, he⟩ := List.mem_flatMap.1 he
        simp [spinRound] at he
        rcases he with rfl | rfl
        · exact .inr ⟨_, _, rfl⟩
        · exact .inl ⟨_, _, rfl⟩
  suffices ∃ (as : List OpId) (s' : State w V W), as.length = n ∧ Run c (tr ++ [.core (.ret a .full)] ++ as.flatMap (spinRound k v)) s' ∧
      s'.snd k = .toCont by
    obtain ⟨as, s', h1, h2, -⟩ := this
    exact ⟨as, s', h1, h2⟩
  induction n with
  | zero => exact ⟨[], s, rfl, by simpa using h, h.exec.full_toCont hb ha hn⟩
  | succ n ih =>
    obtain ⟨as, s1, h1, h2, h3⟩ := ih
    obtain ⟨l, hl, hm⟩ := hcore as
    have e1 : nRes (coreOf tr ++ l) = nRes (coreOf tr) := by
      have : resOps l = [] := by
        simp only [resOps, List.filterMap_eq_nil_iff]
        intro e he
        rcases hm e he with ⟨b, r, rfl⟩ | ⟨b, op, rfl⟩ <;> rfl
      simp only [nRes, resOps] at this ⊢
      rw [List.filterMap_append, this, List.append_nil]
    have e2 : nDeq (coreOf tr ++ l) = nDeq (coreOf tr) := by
      have : deqOps l = [] := by
        simp only [deqOps, List.filterMap_eq_nil_iff]
        intro e he
        rcases hm e he with ⟨b, r, rfl⟩ | ⟨b, op, rfl⟩ <;> rfl
      simp only [nDeq, deqOps] at this ⊢
      rw [List.filterMap_append, this, List.append_nil]
    have e3 : ∀ e, e ∈ coreOf tr ++ l → (∀ b r, e ≠ .ret b r) → (∀ b op, e ≠ .invoke b op) → e ∈ coreOf tr := by
      intro e he h4 h5
      rcases List.mem_append.1 he with he | he
      · exact he
      · rcases hm e he with ⟨b, r, rfl⟩ | ⟨b, op, rfl⟩
        · exact absurd rfl (h4 b r)
        · exact absurd rfl (h5 b op)
    obtain ⟨b, s2, h4, h5, -⟩ := h2.round hb h3 (v := v)
      (by rw [hl]; rintro ⟨b, hb⟩; exact hc ⟨b, e3 _ hb (by simp) (by simp)⟩)
      (by rw [hl, e1, e2]; exact hf)
      (by
        rw [hl, e1]
        rintro ⟨b, h6, h7, h8⟩
        refine hh ⟨b, ?_, fun ⟨i, v, h9⟩ => h7 ⟨i, v, by simp [h9]⟩, fun ⟨i, v, h9⟩ => h8 ⟨i, v, by simp [h9]⟩⟩
        rcases h6 with h6 | ⟨v, h6⟩
        · exact .inl (e3 _ h6 (by simp) (by simp))
        · exact .inr ⟨v, e3 _ h6 (by simp) (by simp)⟩)
    refine ⟨as ++ [b], s2, by simp [h1], ?_, h5⟩
    simpa [List.flatMap_append] using h4

/-! ### A concrete case

Capacity 1. Call 1 finds the channel full and sleeps; it is woken, but call 2 takes the free place. -/

def spinDemo : List It :=
  iSend 0 10 1 ++ iDropSend 0 100 ++ iSend 1 11 2 ++ iStart 1 7 ++ iTry 50 ++ iDropRecv 50 60 ++ iSend 2 12 3 ++ iDropSend 2 101 ++
    iCont 1 7 ++ iRetry 1 13 2

def spinTr : Trace Nat Nat := scriptTr (demoC 1 true) spinDemo

theorem spinDemo_run : ∃ s : State 8 Nat Nat, Run (demoC 1 true) spinTr s :=
  Run.of_scriptTr (by decide) (by decide +kernel) (by decide +kernel)

/-- `C46_waits_when_full_partial` applies to the two attempts of call 1. -/
example : ∃ pre mid post : Trace Nat Nat, spinTr = pre ++ .api (.attempt 1 11) :: (mid ++ .api (.attempt 1 13) :: post) ∧
    (∀ x, .api (.attempt 1 x) ∉ mid) ∧ .queue (.retCont 1 .notified) ∉ pre := by
  refine ⟨spinTr.takeWhile fun e => e != .api (.attempt 1 11),
    ((spinTr.dropWhile fun e => e != .api (.attempt 1 11)).drop 1).takeWhile fun e => e != .api (.attempt 1 13),
    ((spinTr.dropWhile fun e => e != .api (.attempt 1 13)).drop 1), by decide +kernel, ?_, by decide +kernel⟩
  intro x hx
  have : (((spinTr.dropWhile fun e => e != .api (.attempt 1 11)).drop 1).takeWhile fun e => e != .api (.attempt 1 13)).all
      (fun | .api (.attempt k _) => k != 1 | _ => true) = true := by decide +kernel
  simpa using List.all_eq_true.1 this _ hx

/-- Every push and pop that succeeded is over. (Decides that nobody holds an element.) -/
def allOver (t : Thingbuf.Trace Nat) : Bool := t.all fun e => match e with
  | .reserve b _ => t.any (fun x => match x with | .commit d _ _ => b == d | _ => false)
  | .dequeue b _ _ => t.any (fun x => match x with | .release d _ _ => b == d | _ => false)
  | _ => true

theorem allOver_imp {t : Thingbuf.Trace Nat} (h : allOver t = true) (a i : Nat) : ¬ Holds t a i := by
  rintro ⟨h2, h3, h4⟩
  rcases h2 with h2 | ⟨v, h2⟩
  · have := List.all_eq_true.1 h _ h2
    simp only [List.any_eq_true] at this
    obtain ⟨e, h5, h6⟩ := this
    split at h6
    · simp at h6; subst h6; exact h3 ⟨_, _, h5⟩
    · cases h6
  · have := List.all_eq_true.1 h _ h2
    simp only [List.any_eq_true] at this
    obtain ⟨e, h5, h6⟩ := this
    split at h6
    · simp at h6; subst h6; exact h4 ⟨_, _, h5⟩
    · cases h6

/-- **C46** is false: `C46_busy_loop` applies to call 1, which therefore spins for ever. -/
theorem C46_false_spins (n : Nat) : ∃ (as : List OpId) (s : State 8 Nat Nat), as.length = n ∧
    Run (demoC 1 true) (spinTr ++ as.flatMap (spinRound 1 7)) s := by
  obtain ⟨s, h⟩ := spinDemo_run
  have e : spinTr = spinTr.dropLast ++ [.core (.ret 13 .full)] := by decide +kernel
  rw [e] at h ⊢
  refine C46_busy_loop h rfl (by decide +kernel) (by decide +kernel) ?_ (by decide +kernel) ?_ 7 n
  · rintro ⟨a, ha⟩
    have : (coreOf spinTr.dropLast).all (fun | .close _ => false | _ => true) = true := by decide +kernel
    simpa using List.all_eq_true.1 this _ ha
  · rintro ⟨b, hb⟩
    exact allOver_imp (by decide +kernel) b _ hb

end Thingbuf.Chan
