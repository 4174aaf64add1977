import Verif.Lin
/-
C58: the queue is linearizable. The sequential queue and the meaning of "linearizable" are in `LinSpec.lean`.
-/
namespace Thingbuf

variable {w cap : Nat} {V : Type} {tr : Trace V} {s : State w V}

/-- C58. Every concurrent history of the queue, with any number of threads, is linearizable: one can mark in it a
point for every call that returned (and for some that did not), between its invocation and its return, such that a
sequential queue that performs the calls one after the other in the order of the points gives each of them the result
it had, and every pop the element it got. The elements become available to pops when the `Ref`s of their pushes are
dropped. -/
theorem C58_linearizable (h : Run w cap tr s) : ∃ L, Linearizes cap tr L :=
  h.linearizes

/-- C58. So the order of the points agrees with real time: if a call returned before another one was made, then its
point is not after that of the other. -/
theorem C58_real_time (h : Run w cap tr s) {L : Marked V} (hL : Linearizes cap tr L) {p q : Trace V} {a b : OpId}
    {op₁ op₂ : Op} {r : Ret} (htr : tr = p ++ .ret a r :: q) (hb : Event.invoke b op₂ ∈ q) {L₁ L₂ L₃ : Marked V}
    {l₁ l₂ : Label V} (h₁ : l₁.call = some (a, op₁)) (h₂ : l₂.call = some (b, op₂)) :
    L ≠ L₁ ++ .inr l₂ :: L₂ ++ .inr l₁ :: L₃ := by
  intro he
  have d1 := (hL.during (L₁ ++ .inr l₂ :: L₂) l₁ L₃ a op₁ he h₁).2
  have d2 := (hL.during L₁ l₂ (L₂ ++ .inr l₁ :: L₃) b op₂ (by rw [he]; simp) h₂).1
  have hev : Marked.events (L₁ ++ .inr l₂ :: L₂) ++ Marked.events (.inr l₁ :: L₃) = tr := by
    rw [← events_append, ← hL.history, he]
  have hev' : Marked.events (L₁ ++ .inr l₂ :: L₂) = Marked.events L₁ ++ Marked.events (.inr l₂ :: L₂) :=
    events_append _ _
  have hm : Marked.events (L₁ ++ .inr l₂ :: L₂) <+: p := by
    rcases List.prefix_or_prefix_of_prefix (⟨_, hev⟩ : Marked.events (L₁ ++ .inr l₂ :: L₂) <+: tr)
      (⟨q, by rw [htr]; simp⟩ : p ++ [.ret a r] <+: tr) with hx | hx
    · rcases List.prefix_concat_iff.1 hx with hx | hx
      · exact absurd ⟨r, by rw [hx]; simp⟩ d1
      · exact hx
    · exact absurd ⟨r, hx.subset (by simp)⟩ d1
  have hbp : Event.invoke b op₂ ∈ p := hm.subset (by rw [hev']; exact List.mem_append_left _ d2)
  obtain ⟨m, n, rfl⟩ := List.append_of_mem hb
  exact (h.evOk (pre := p ++ .ret a r :: m) (e := .invoke b op₂) (post := n) (by rw [htr]; simp)).1
    ⟨op₂, List.mem_append_left _ hbp⟩

/-- The theorem applies to the run of `CoreProps.lean`, in which twelve calls return (`pushed`, `popped`, `full`, a
length, `closed`); the push 0 and the call of `close` 6 are two of them, and their points are in the order in which
they were made. -/
example : ∃ s, Run 8 2 demoTrace s ∧ ∃ L, Linearizes 2 demoTrace L ∧
    (∃ l op, .inr l ∈ L ∧ l.call = some (0, op) ∧ l.Gives .pushed) ∧
    (∀ L₁ L₂ L₃ b, L ≠ L₁ ++ .inr (.close 6 b) :: L₂ ++ .inr (.push 0) :: L₃) := by
  obtain ⟨s, hs⟩ := demoRun
  obtain ⟨L, hL⟩ := C58_linearizable hs
  exact ⟨s, hs, L, hL, hL.complete 0 .pushed (by decide), fun L₁ L₂ L₃ b =>
    C58_real_time hs hL (p := demoTrace.take 4) (q := demoTrace.drop 5) (r := .pushed) (by decide) (by decide) rfl rfl⟩

/-- A push to a full queue of capacity 1 looks at the tail; another thread closes the queue; the push goes on and
returns `Full`. Its point is then before that of the `close` that returned earlier. Scaffolding of the model, no
counterpart in the source. -/
def overtakenActs : List (Act Nat) :=
  pushActs 0 7 ++ [.dropRef 0, .invoke 1 .push, .run 1, .invoke 2 (.close false), .run 2, .run 1, .run 1]

/-- Scaffolding of the model, no counterpart in the source. -/
def overtakenTr : Trace Nat :=
  [.invoke 0 .push, .reserve 0 0, .access 0 0 (.create 7), .ret 0 .pushed, .commit 0 0 (some 7),
   .invoke 1 .push, .invoke 2 (.close false), .close 2, .ret 2 (.closeRet true), .ret 1 .full]

example : ∃ s L, Run 8 1 overtakenTr s ∧ Linearizes 1 overtakenTr L ∧
    (∃ l op, .inr l ∈ L ∧ l.call = some (1, op) ∧ l.Gives .full) := by
  obtain ⟨s, hs⟩ : ∃ s, Run 8 1 overtakenTr s :=
    Run.of_acts (by decide) overtakenActs _ (by decide +kernel) (by decide +kernel)
  obtain ⟨L, hL⟩ := C58_linearizable hs
  exact ⟨s, L, hs, hL, hL.complete 1 .full (by decide)⟩

theorem Abs.Steps.open {q q' : Abs V} {ls : List (Label V)} (h : Abs.Steps cap q ls q') (hq : q.closed = false)
    (hn : ∀ a b, Label.close a b ∉ ls) : ∀ a, Label.popClosed a ∉ ls := by
  induction h with
  | nil => simp
  | cons hs _ ih =>
    intro a ha
    have hn' := fun a b hx => hn a b (List.mem_cons_of_mem _ hx)
    cases hs with
    | popClosed => cases hq
    | close => exact hn _ _ (List.mem_cons_self ..)
    | _ =>
      rcases List.mem_cons.1 ha with hx | hx
      · cases hx
      · exact ih hq hn' a hx

/-- Not every history is linearizable: nobody closed the queue, but a pop returns `Closed`. -/
example : ¬ ∃ L, Linearizes 2 ([.invoke 0 .pop, .ret 0 .closed] : Trace Nat) L := by
  rintro ⟨L, hL⟩
  obtain ⟨l, op, h1, h2, h3⟩ := hL.complete 0 .closed (by simp)
  obtain ⟨q, hq⟩ := hL.legal
  have sub : ∀ l a op, .inr l ∈ L → l.call = some (a, op) →
      Event.invoke a op ∈ ([.invoke 0 .pop, .ret 0 .closed] : Trace Nat) := by
    intro l a op hm hc
    obtain ⟨L₁, L₂, rfl⟩ := List.append_of_mem hm
    rw [← hL.history, events_append]
    exact List.mem_append_left _ (hL.during L₁ l L₂ a op rfl hc).1
  have hno := hq.open rfl (fun a b hx => by
    have hm : .inr (.close a b) ∈ L := by
      simp only [Marked.labels, List.mem_filterMap] at hx
      obtain ⟨x, hx, hy⟩ := hx
      cases x with
      | inl e => cases hy
      | inr l => cases hy; exact hx
    have := sub _ a (.close false) hm rfl
    simp at this)
  have hop := sub l 0 op h1 h2
  simp at hop
  subst hop
  cases l with
  | popClosed b => exact hno b (by simp only [Marked.labels, List.mem_filterMap]; exact ⟨_, h1, rfl⟩)
  | pop b v => cases h3
  | empty b => cases h3
  | push b => cases h2
  | full b => cases h2
  | pushClosed b => cases h2
  | len b n => cases h2
  | close b c => cases h2
  | closePanicking b => cases h2
  | publish b v => cases h2

end Thingbuf
