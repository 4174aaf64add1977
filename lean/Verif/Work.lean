import Verif.Solo
/-
How much work concurrent calls of the ring buffer make for each other: the counting behind C57.
-/
namespace Thingbuf

/-- Does this event claim a slot or close the queue? These are the only successes that can make another call
retry. Scaffolding of the model, no counterpart in the source. -/
def Event.isClaim {V : Type} : Event V → Bool
  | .reserve _ _ | .dequeue _ _ _ | .close _ => true
  | _ => false

/-- The number of claims in a piece of history: slots claimed by pushes, elements claimed by pops, calls to
`close`. Scaffolding of the model, no counterpart in the source. -/
def claims {V : Type} (tr : Trace V) : Nat := tr.countP Event.isClaim

/-- The calls made in a piece of history. Scaffolding of the model, no counterpart in the source. -/
def calls {V : Type} (tr : Trace V) : List OpId := tr.filterMap fun | .invoke a _ => some a | _ => none

/-- The slot that the call `a` needs next is in other hands, so that no algorithm using this slot order could
finish the call now: the call is a push to an open queue and somebody holds the slot of the next element (a live
`Ref` of the previous lap, or the unpublished oldest element of a full queue), or the call is a pop from an empty
queue and somebody still holds the slot of the next element. This is the condition of C16. Scaffolding of the
model, no counterpart in the source. -/
def Obstructed {V : Type} (cap : Nat) (tr : Trace V) (a : OpId) : Prop :=
  (Event.invoke a .push ∈ tr ∧ ¬ Closed tr ∧ ∃ b, Holds tr b (nRes tr % cap)) ∨
  (Event.invoke a .pop ∈ tr ∧ IsEmpty tr ∧ ∃ b, Holds tr b (nDeq tr % cap))

/-- What each call has done. Scaffolding of the model, no counterpart in the source. -/
structure Tally where
  /-- atomic steps taken -/
  steps : OpId → Nat
  /-- of these, compare-and-swaps that failed spuriously -/
  spurious : OpId → Nat
  /-- of these, steps taken while the slot needed next was in other hands -/
  waits : OpId → Nat

/-- Nothing done yet. Scaffolding of the model, no counterpart in the source. -/
def Tally.zero : Tally := ⟨fun _ => 0, fun _ => 0, fun _ => 0⟩

/-- A stretch of an execution, with the steps of every call counted: it leads from the history `tr₀` and the state
`s₀` to the history `tr₀ ++ tr` and the state `s`. Scaffolding of the model, no counterpart in the source. -/
inductive Work {w : Nat} {V : Type} (cap : Nat) (tr₀ : Trace V) (s₀ : State w V) :
    Trace V → State w V → Tally → Prop where
  | nil : Work cap tr₀ s₀ [] s₀ .zero
  /-- a step that is not obstructed -/
  | go {tr : Trace V} {s s' : State w V} {t : Tally} {a : OpId} {evs : List (Event V)} :
      Work cap tr₀ s₀ tr s t → step cap s (.run a) = some (s', evs) → ¬ Obstructed cap (tr₀ ++ tr) a →
      Work cap tr₀ s₀ (tr ++ evs) s' { t with steps := upd t.steps a (t.steps a + 1) }
  /-- a step taken while the slot needed next is in other hands -/
  | wait {tr : Trace V} {s s' : State w V} {t : Tally} {a : OpId} {evs : List (Event V)} :
      Work cap tr₀ s₀ tr s t → step cap s (.run a) = some (s', evs) → Obstructed cap (tr₀ ++ tr) a →
      Work cap tr₀ s₀ (tr ++ evs) s'
        { t with steps := upd t.steps a (t.steps a + 1), waits := upd t.waits a (t.waits a + 1) }
  /-- a spurious failure -/
  | spurious {tr : Trace V} {s s' : State w V} {t : Tally} {a : OpId} {evs : List (Event V)} :
      Work cap tr₀ s₀ tr s t → step cap s (.spurious a) = some (s', evs) →
      Work cap tr₀ s₀ (tr ++ evs) s'
        { t with steps := upd t.steps a (t.steps a + 1), spurious := upd t.spurious a (t.spurious a + 1) }
  /-- anything else: a new call, user code -/
  | other {tr : Trace V} {s s' : State w V} {t : Tally} {act : Act V} {evs : List (Event V)} :
      Work cap tr₀ s₀ tr s t → step cap s act = some (s', evs) →
      (∀ a, act ≠ .run a) → (∀ a, act ≠ .spurious a) → Work cap tr₀ s₀ (tr ++ evs) s' t

/-- Is this action an atomic step of the call `a`? Scaffolding of the model, no counterpart in the source. -/
def Act.isStepOf {V : Type} (a : OpId) : Act V → Bool
  | .run b | .spurious b => a = b
  | _ => false

/-- Is this action a spurious failure of the call `a`? Scaffolding of the model, no counterpart in the source. -/
def Act.isSpuriousOf {V : Type} (a : OpId) : Act V → Bool
  | .spurious b => a = b
  | _ => false

section
variable {w cap : Nat} {V : Type} {tr₀ tr : Trace V} {s₀ s s' : State w V} {t : Tally}

theorem Work.exec (h : Work cap tr₀ s₀ tr s t) (h0 : Exec w cap tr₀ s₀) : Exec w cap (tr₀ ++ tr) s := by
  induction h with
  | nil => simpa using h0
  | go _ hs _ ih => rw [← List.append_assoc]; exact .step ih hs
  | wait _ hs _ ih => rw [← List.append_assoc]; exact .step ih hs
  | spurious _ hs ih => rw [← List.append_assoc]; exact .step ih hs
  | other _ hs _ _ ih => rw [← List.append_assoc]; exact .step ih hs

/-- Every stretch of an execution can be counted. -/
theorem Work.ofActs (acts : List (Act V)) {u : Trace V} (h : Work cap tr₀ s₀ tr s t)
    (hr : runActs cap s acts = some (s', u)) : ∃ t', Work cap tr₀ s₀ (tr ++ u) s' t' ∧
      ∀ a, t'.steps a = t.steps a + acts.countP (Act.isStepOf a) ∧
        t'.spurious a = t.spurious a + acts.countP (Act.isSpuriousOf a) := by
  induction acts generalizing tr s t u with
  | nil =>
    simp only [runActs, Option.some.injEq, Prod.mk.injEq] at hr
    obtain ⟨rfl, rfl⟩ := hr
    exact ⟨t, by simpa using h, by simp⟩
  | cons act acts ih =>
    unfold runActs at hr
    cases h1 : Thingbuf.step cap s act with
    | none => simp [h1] at hr
    | some r =>
      obtain ⟨s1, e1⟩ := r
      cases h2 : runActs cap s1 acts with
      | none => simp [h1, h2] at hr
      | some r2 =>
        obtain ⟨s2, e2⟩ := r2
        simp only [h1, h2, Option.some.injEq, Prod.mk.injEq] at hr
        obtain ⟨rfl, rfl⟩ := hr
        rw [← List.append_assoc]
        by_cases hrun : ∃ a, act = .run a
        · obtain ⟨a, rfl⟩ := hrun
          by_cases ho : Obstructed cap (tr₀ ++ tr) a
          · obtain ⟨t', h3, h4⟩ := ih (h.wait h1 ho) h2
            refine ⟨t', h3, fun b => ?_⟩
            rw [(h4 b).1, (h4 b).2]
            by_cases hb : b = a <;> simp [upd, Act.isStepOf, Act.isSpuriousOf, List.countP_cons, hb] <;> omega
          · obtain ⟨t', h3, h4⟩ := ih (h.go h1 ho) h2
            refine ⟨t', h3, fun b => ?_⟩
            rw [(h4 b).1, (h4 b).2]
            by_cases hb : b = a <;> simp [upd, Act.isStepOf, Act.isSpuriousOf, List.countP_cons, hb] <;> omega
        · by_cases hsp : ∃ a, act = .spurious a
          · obtain ⟨a, rfl⟩ := hsp
            obtain ⟨t', h3, h4⟩ := ih (h.spurious h1) h2
            refine ⟨t', h3, fun b => ?_⟩
            rw [(h4 b).1, (h4 b).2]
            by_cases hb : b = a <;> simp [upd, Act.isStepOf, Act.isSpuriousOf, List.countP_cons, hb] <;> omega
          · obtain ⟨t', h3, h4⟩ := ih (h.other h1 (fun a e => hrun ⟨a, e⟩) fun a e => hsp ⟨a, e⟩) h2
            refine ⟨t', h3, fun b => ?_⟩
            rw [(h4 b).1, (h4 b).2]
            cases act with
            | run a => exact absurd ⟨a, rfl⟩ hrun
            | spurious a => exact absurd ⟨a, rfl⟩ hsp
            | _ => simp [Act.isStepOf, Act.isSpuriousOf, List.countP_cons]

/-- How many more times `pop_ref` waits for the oldest element before giving up. -/
def spinsLeft (b : Backoff) : Nat := Backoff.maxSpins - b.n

theorem spinsLeft_le (b : Backoff) : spinsLeft b ≤ 3 := by unfold spinsLeft Backoff.maxSpins; omega

theorem spinsLeft_spin (b : Backoff) : spinsLeft b.spin ≤ spinsLeft b := by
  unfold spinsLeft Backoff.spin
  split <;> simp <;> omega

theorem spinsLeft_spinYield (b : Backoff) : spinsLeft b.spinYield ≤ spinsLeft b := by
  unfold spinsLeft Backoff.spinYield
  split <;> simp <;> omega

theorem spinsLeft_lt {b : Backoff} (h : ¬ b.doneSpinning = true) : spinsLeft b.spin + 1 ≤ spinsLeft b := by
  unfold spinsLeft Backoff.spin
  simp only [Backoff.doneSpinning, decide_eq_true_eq, Nat.not_le] at h
  rw [if_pos (by omega)]
  simp only
  omega

/-- The number of steps a call still takes at most if it runs alone, unobstructed: it depends on whether the word
it has read is still current. -/
def rank (gen head tail : BitVec w) : PC w → Nat
  | .pushStart => 3
  | .pushReload _ => 3
  | .pushLoop _ t => if t = tail then 2 else 5
  | .pushCas _ t => if t = tail then 1 else 4
  | .pushHead _ t => if head + gen = t then 1 else 4
  | .popStart => 12
  | .popReload b => 3 * spinsLeft b + 3
  | .popLoop b h => if h = head then 3 * spinsLeft b + 2 else 3 * spinsLeft b + 4
  | .popCas b h => if h = head then 1 else 3 * spinsLeft b + 3
  | .popTail b _ => 3 * spinsLeft b + 1
  | .lenStart => 3
  | .lenHead t => if t = tail then 2 else 5
  | .lenTail t _ => if t = tail then 1 else 4
  | .closeStart _ => 1
  | _ => 0

theorem rank_le (gen head tail : BitVec w) (pc : PC w) : rank gen head tail pc ≤ 13 := by
  cases pc with
  | popReload b => have := spinsLeft_le b; simp only [rank]; omega
  | popLoop b h => have := spinsLeft_le b; simp only [rank]; split <;> omega
  | popCas b h => have := spinsLeft_le b; simp only [rank]; split <;> omega
  | popTail b h => have := spinsLeft_le b; simp only [rank]; omega
  | _ => simp only [rank] <;> first | omega | (split <;> omega)

/-- The rank of the call `a` in the state `s`. -/
def State.rank (cap : Nat) (s : State w V) (a : OpId) : Nat :=
  Thingbuf.rank (Params.new w cap).gen s.head s.tail (s.pc a)

theorem State.rank_le (s : State w V) (a : OpId) : s.rank cap a ≤ 13 := Thingbuf.rank_le _ _ _ _

theorem rank_goto (s : State w V) (a : OpId) (pc : PC w) :
    (s.goto a pc).rank cap a = Thingbuf.rank (Params.new w cap).gen s.head s.tail pc := by
  simp [State.rank]

/-- A step of a call that is not obstructed lowers its rank. -/
theorem Run.rank_lt (h : Run w cap tr s) {a : OpId} {evs : List (Event V)}
    (hs : step cap s (.run a) = some (s', evs)) (ho : ¬ Obstructed cap tr a) :
    s'.rank cap a < s.rank cap a := by
  have hi := h.inv
  have hpc := hi.pcs a
  simp only [step, runStep] at hs
  have e0 : s.rank cap a = Thingbuf.rank (Params.new w cap).gen s.head s.tail (s.pc a) := rfl
  rw [e0]
  cases hp : s.pc a <;> rw [hp] at hs hpc <;> simp only [Option.some.injEq, reduceCtorEq] at hs
  case pushStart =>
    cases hs; rw [rank_goto]; simp [Thingbuf.rank]
  case pushReload b =>
    cases hs; rw [rank_goto]; simp [Thingbuf.rank]
  case pushLoop b t =>
    have hinv : Event.invoke a .push ∈ tr := hpc.1.inv
    by_cases hf : t = s.tail
    · subst hf
      simp only [Thingbuf.rank, if_true]
      by_cases hc : Closed tr
      · have ht := hi.tail
        rw [closedB_iff.2 hc] at ht
        rw [ht, pushLoop_closed h.sized] at hs
        cases hs; rw [rank_goto]; simp [Thingbuf.rank]
      · have hh : ¬ ∃ b, Holds tr b (nRes tr % cap) := fun hh => ho (.inl ⟨hinv, hc, hh⟩)
        have ht := h.tail_open hc
        by_cases hfull : nRes tr < nDeq tr + cap
        · have hst : s.st (nRes tr % cap) = enc w cap (nRes tr) := by
            rcases h.slot_room hfull with ⟨_, h1⟩ | ⟨h1, _⟩
            · exact h1
            · exact absurd h1 hh
          rw [ht, pushLoop_free h.sized hst] at hs
          cases hs; rw [rank_goto]; simp [Thingbuf.rank, ht]
        · have hge := hi.ge
          have hpos := h.sized.1
          have hfull' : nRes tr = nDeq tr + cap := by omega
          have hm : nRes tr % cap = nDeq tr % cap := by rw [hfull']; simp
          have hst : s.st (nRes tr % cap) = enc w cap (nDeq tr) + 1#w := by
            rcases h.slot_queued (p := nDeq tr) (Nat.le_refl _) (by omega) with ⟨_, h1⟩ | ⟨h1, _⟩
            · rw [hm, h1]
            · rw [← hm] at h1; exact absurd h1 hh
          rw [ht, pushLoop_prev h.sized hfull' hst] at hs
          cases hs; rw [rank_goto]
          simp [Thingbuf.rank, hi.head, enc_add_gen h.sized, ← hfull']
    · simp only [Thingbuf.rank, if_neg hf]
      unfold pushLoop at hs
      simp only at hs
      repeat' split at hs
      all_goals (cases hs; rw [rank_goto]; simp only [Thingbuf.rank])
      all_goals first | omega | (split <;> omega)
  case pushCas b t =>
    unfold pushCas at hs
    simp only at hs
    split at hs
    · cases hs; rw [rank_goto]; simp only [Thingbuf.rank]; split <;> omega
    · split at hs
      · cases hs; simp only [State.rank, goto_pc_self', Thingbuf.rank]; split <;> omega
      · rename_i hne
        have hne' : ¬ t = s.tail := fun e => hne ⟨e.symm, trivial⟩
        cases hs; rw [rank_goto]; simp [Thingbuf.rank, hne']
  case pushHead b t =>
    unfold pushHead at hs
    split at hs
    · cases hs; rename_i hh; rw [rank_goto]; simp [Thingbuf.rank, hh]
    · cases hs; rename_i hh; rw [rank_goto]; simp [Thingbuf.rank, hh]
  case popStart =>
    cases hs; rw [rank_goto]; simp [Thingbuf.rank, spinsLeft, Backoff.maxSpins, Backoff.new]
  case popReload b =>
    cases hs; rw [rank_goto]; simp [Thingbuf.rank]
  case popLoop b hd =>
    have hinv : Event.invoke a .pop ∈ tr := hpc.1.inv
    have hy := spinsLeft_spinYield b
    by_cases hf : hd = s.head
    · subst hf
      simp only [Thingbuf.rank, if_true]
      have hpos := h.sized.1
      rw [hi.head] at hs
      by_cases he : IsEmpty tr
      · have he' : nRes tr = nDeq tr := he
        have hh : ¬ ∃ b, Holds tr b (nDeq tr % cap) := fun hh => ho (.inr ⟨hinv, he, hh⟩)
        have hst : s.st (nDeq tr % cap) = enc w cap (nDeq tr) := by
          rcases h.slot_room (by omega) with ⟨_, h1⟩ | ⟨h1, _⟩
          · rw [he'] at h1; exact h1
          · rw [he'] at h1; exact absurd h1 hh
        rw [popLoop_free h.sized hst] at hs
        cases hs; rw [rank_goto]; simp [Thingbuf.rank]
      · have hle := hi.le
        have hne : nRes tr ≠ nDeq tr := he
        rcases h.slot_queued (p := nDeq tr) (Nat.le_refl _) (by omega) with ⟨_, h1⟩ | ⟨_, h1⟩
        · rw [popLoop_ready h.sized h1] at hs
          cases hs; rw [rank_goto]; simp [Thingbuf.rank, hi.head]
        · rw [popLoop_free h.sized h1] at hs
          cases hs; rw [rank_goto]; simp [Thingbuf.rank]
    · simp only [Thingbuf.rank, if_neg hf]
      unfold popLoop at hs
      simp only at hs
      repeat' split at hs
      all_goals (cases hs; rw [rank_goto]; simp only [Thingbuf.rank])
      all_goals first | omega | (split <;> omega)
  case popCas b hd =>
    have hy := spinsLeft_spin b
    unfold popCas at hs
    simp only at hs
    split at hs
    · cases hs; rw [rank_goto]; simp only [Thingbuf.rank]; split <;> omega
    · split at hs
      · cases hs; simp only [State.rank, goto_pc_self', Thingbuf.rank]; split <;> omega
      · rename_i hne
        have hne' : ¬ hd = s.head := fun e => hne ⟨e.symm, trivial⟩
        cases hs; rw [rank_goto]; simp only [Thingbuf.rank, hne', if_true, if_false]; omega
  case popTail b hd =>
    unfold popTail at hs
    split at hs
    · split at hs <;> (cases hs; rw [rank_goto]; simp [Thingbuf.rank])
    · split at hs
      · cases hs; rw [rank_goto]; simp [Thingbuf.rank]
      · rename_i hb
        have := spinsLeft_lt hb
        cases hs; rw [rank_goto]; simp only [Thingbuf.rank]; omega
  case lenStart =>
    cases hs; rw [rank_goto]; simp [Thingbuf.rank]
  case lenHead t =>
    cases hs; rw [rank_goto]; simp only [Thingbuf.rank]; split <;> omega
  case lenTail t hd =>
    split at hs
    · cases hs; rename_i hh; rw [rank_goto]; simp [Thingbuf.rank, hh]
    · cases hs; rename_i hh; rw [rank_goto]; simp [Thingbuf.rank, Ne.symm hh]
  case closeStart p =>
    unfold closeStep at hs
    split at hs
    · cases hs; rw [rank_goto]; simp [Thingbuf.rank]
    · cases hs; simp [State.rank, Thingbuf.rank]

/-- Who takes this step. -/
def Act.op : Act V → OpId
  | .invoke a _ | .run a | .spurious a | .elem a _ | .elemPanic a _ | .read a | .write a _ | .dropRef a => a

theorem step_frame {act : Act V} {evs : List (Event V)} (hs : step cap s act = some (s', evs)) {a : OpId}
    (ha : act.op ≠ a) : s'.pc a = s.pc a := by
  have hg : ∀ (s : State w V) b pc, b ≠ a → (s.goto b pc).pc a = s.pc a := fun s b pc hb => by
    simp [State.goto, upd, Ne.symm hb]
  cases act <;> simp only [step, runStep, Act.op] at hs ha
  all_goals try simp only [pushLoop, pushCas, pushHead, popLoop, popCas, popTail, closeStep, pushElem,
    pushElemPanic] at hs
  all_goals repeat' split at hs
  all_goals try (cases hs; done)
  all_goals (cases hs; first | rfl | simp [hg _ _ _ ha] | (simp [State.goto, upd, Ne.symm ha]))

theorem step_words {act : Act V} {evs : List (Event V)} (hs : step cap s act = some (s', evs))
    (hn : claims evs = 0) : s'.head = s.head ∧ s'.tail = s.tail := by
  cases act <;> simp only [step, runStep] at hs
  all_goals try simp only [pushLoop, pushCas, pushHead, popLoop, popCas, popTail, closeStep, pushElem,
    pushElemPanic] at hs
  all_goals repeat' split at hs
  all_goals try (cases hs; done)
  all_goals (cases hs; first | exact ⟨rfl, rfl⟩ | (simp [claims, Event.isClaim] at hn))

theorem Run.prefix {u : Trace V} (h : Run w cap (tr ++ u) s') (he : Exec w cap tr s) : Run w cap tr s :=
  ⟨h.sized, he, fun pre hp => h.noStall pre (hp.trans (List.prefix_append _ _))⟩

theorem claims_append (t u : Trace V) : claims (t ++ u) = claims t + claims u := by
  simp [claims]

/-- A step of somebody else, or a step that is not a step of the algorithm, raises the rank only if it claims
something or starts the call. -/
theorem rank_other {act : Act V} {evs : List (Event V)} (hs : step cap s act = some (s', evs)) {a : OpId}
    (ha : act.op ≠ a) : s'.rank cap a ≤ s.rank cap a + 13 * claims evs := by
  by_cases hn : claims evs = 0
  · obtain ⟨h1, h2⟩ := step_words hs hn
    have h3 := step_frame hs ha
    unfold State.rank
    rw [h1, h2, h3]
    omega
  · have := s'.rank_le (cap := cap) a
    omega

theorem rank_user {act : Act V} {evs : List (Event V)} (hs : step cap s act = some (s', evs))
    (h1 : ∀ a, act ≠ .run a) (h2 : ∀ a, act ≠ .spurious a) :
    (s.pc act.op = .idle) ∨ s'.rank cap act.op ≤ s.rank cap act.op := by
  cases act with
  | run a => exact absurd rfl (h1 a)
  | spurious a => exact absurd rfl (h2 a)
  | invoke a op =>
    simp only [step] at hs
    split at hs
    · left; assumption
    · cases hs
  | _ =>
    right
    simp only [step, Act.op, pushElem, pushElemPanic] at hs ⊢
    repeat' split at hs
    all_goals try (cases hs; done)
    all_goals (cases hs; simp [State.rank, Thingbuf.rank, *])

/-- Steps taken so far, plus the rank, against the bound. -/
theorem Work.potential (h : Work cap tr₀ s₀ tr s t) (hr : Run w cap (tr₀ ++ tr) s) (h0 : Exec w cap tr₀ s₀)
    (a : OpId) :
    (s.pc a = .idle → t.steps a = 0) ∧
    t.steps a + s.rank cap a ≤ 13 * (1 + claims tr + t.spurious a + t.waits a) := by
  induction h with
  | nil =>
    have := s₀.rank_le (cap := cap) a
    refine ⟨fun _ => rfl, ?_⟩
    show 0 + _ ≤ _
    omega
  | @go tr s s' t b evs hw hs ho ih =>
    rw [← List.append_assoc] at hr
    have hr' := hr.prefix (hw.exec h0)
    have ih := ih hr'
    rw [claims_append]
    by_cases hb : b = a
    · subst hb
      have := hr'.rank_lt hs ho
      have hne : s.pc b ≠ .idle := by
        intro e; simp [step, runStep, e] at hs
      refine ⟨fun hi => ?_, ?_⟩
      · exfalso
        revert hi
        simp only [step, runStep] at hs
        simp only [pushLoop, pushCas, pushHead, popLoop, popCas, popTail, closeStep] at hs
        repeat' split at hs
        all_goals first | (cases hs; done) | (cases hs; simp)
      · simp only [upd_self]
        omega
    · have := rank_other (a := a) hs (by simpa [Act.op] using hb)
      have hf := step_frame (a := a) hs (by simpa [Act.op] using hb)
      simp only [upd_ne _ _ (Ne.symm hb), hf]
      exact ⟨ih.1, by omega⟩
  | @wait tr s s' t b evs hw hs ho ih =>
    rw [← List.append_assoc] at hr
    have hr' := hr.prefix (hw.exec h0)
    have ih := ih hr'
    rw [claims_append]
    by_cases hb : b = a
    · subst hb
      have := s'.rank_le (cap := cap) b
      refine ⟨fun hi => ?_, ?_⟩
      · exfalso
        revert hi
        simp only [step, runStep] at hs
        simp only [pushLoop, pushCas, pushHead, popLoop, popCas, popTail, closeStep] at hs
        repeat' split at hs
        all_goals first | (cases hs; done) | (cases hs; simp)
      · simp only [upd_self]
        have h3 : 0 < s.rank cap b := by
          simp only [step, runStep] at hs
          unfold State.rank
          cases hp : s.pc b <;> rw [hp] at hs <;> simp only [reduceCtorEq] at hs <;> simp only [Thingbuf.rank] <;>
            first | omega | (split <;> omega)
        omega
    · have := rank_other (a := a) hs (by simpa [Act.op] using hb)
      have hf := step_frame (a := a) hs (by simpa [Act.op] using hb)
      simp only [upd_ne _ _ (Ne.symm hb), hf]
      exact ⟨ih.1, by omega⟩
  | @spurious tr s s' t b evs hw hs ih =>
    rw [← List.append_assoc] at hr
    have hr' := hr.prefix (hw.exec h0)
    have ih := ih hr'
    rw [claims_append]
    by_cases hb : b = a
    · subst hb
      have := s'.rank_le (cap := cap) b
      refine ⟨fun hi => ?_, ?_⟩
      · exfalso
        revert hi
        simp only [step] at hs
        simp only [pushCas, popCas] at hs
        repeat' split at hs
        all_goals first | (cases hs; done) | (cases hs; simp)
      · simp only [upd_self]
        have h3 : 0 < s.rank cap b := by
          simp only [step] at hs
          unfold State.rank
          cases hp : s.pc b <;> rw [hp] at hs <;> simp only [reduceCtorEq] at hs <;> simp only [Thingbuf.rank] <;>
            first | omega | (split <;> omega)
        omega
    · have := rank_other (a := a) hs (by simpa [Act.op] using hb)
      have hf := step_frame (a := a) hs (by simpa [Act.op] using hb)
      simp only [upd_ne _ _ (Ne.symm hb), hf]
      exact ⟨ih.1, by omega⟩
  | @other tr s s' t act evs hw hs h1 h2 ih =>
    rw [← List.append_assoc] at hr
    have hr' := hr.prefix (hw.exec h0)
    have ih := ih hr'
    rw [claims_append]
    by_cases hb : act.op = a
    · subst hb
      rcases rank_user (cap := cap) hs h1 h2 with hi | hle
      · have := s'.rank_le (cap := cap) act.op
        have h3 := ih.1 hi
        exact ⟨fun _ => h3, by omega⟩
      · refine ⟨fun hi => ?_, by omega⟩
        exfalso
        revert hi
        cases act with
        | run a => exact absurd rfl (h1 a)
        | spurious a => exact absurd rfl (h2 a)
        | invoke a op =>
          simp only [step] at hs
          split at hs
          · cases hs; cases op <;> simp [Act.op, startPC]
          · cases hs
        | _ =>
          simp only [step, Act.op, pushElem, pushElemPanic] at hs ⊢
          repeat' split at hs
          all_goals first | (cases hs; done) | (cases hs; simp [*])
    · have := rank_other (a := a) hs hb
      have hf := step_frame (a := a) hs hb
      rw [hf]
      exact ⟨ih.1, by omega⟩

/-! ### Every call claims at most once -/

/-- Who claimed something. -/
def claimOps (tr : Trace V) : List OpId :=
  tr.filterMap fun | .reserve a _ | .dequeue a _ _ | .close a => some a | _ => none

theorem claims_eq (tr : Trace V) : claims tr = (claimOps tr).length := by
  induction tr with
  | nil => rfl
  | cons e tr ih =>
    simp only [claims, claimOps] at ih ⊢
    cases e <;> simp [Event.isClaim, List.countP_cons, ih]

/-- The call has claimed, or is over. -/
def PC.past : PC w → Bool
  | .done | .pushInit _ | .pushHeld _ _ | .pushPanicked _ | .popHeld _ _ | .crashed _ => true
  | _ => false

theorem step_claim {act : Act V} {evs : List (Event V)} (hs : step cap s act = some (s', evs)) :
    (claimOps evs = [] ∧ ((s.pc act.op).past = true → (s'.pc act.op).past = true)) ∨
    (claimOps evs = [act.op] ∧ (s.pc act.op).past = false ∧ (s'.pc act.op).past = true) := by
  cases act <;> simp only [step, runStep, Act.op] at hs ⊢
  all_goals try simp only [pushLoop, pushCas, pushHead, popLoop, popCas, popTail, closeStep, pushElem,
    pushElemPanic] at hs
  all_goals repeat' split at hs
  all_goals try (cases hs; done)
  all_goals (cases hs; simp [claimOps, PC.past, *])

theorem claimOps_append (t u : Trace V) : claimOps (t ++ u) = claimOps t ++ claimOps u := by
  simp [claimOps]

theorem Exec.claimOps (h : Exec w cap tr s) :
    (claimOps tr).Nodup ∧ ∀ a ∈ claimOps tr, (s.pc a).past = true := by
  induction h with
  | init => simp [Thingbuf.claimOps]
  | @step tr s s' act evs _ hs ih =>
    rw [claimOps_append]
    obtain ⟨ih1, ih2⟩ := ih
    have hp : ∀ a, (s.pc a).past = true → (s'.pc a).past = true := by
      intro a ha
      by_cases hb : act.op = a
      · subst hb
        rcases step_claim hs with ⟨_, h⟩ | ⟨_, _, h⟩
        · exact h ha
        · exact h
      · rw [step_frame hs hb]; exact ha
    rcases step_claim hs with ⟨h1, h2⟩ | ⟨h1, h2, h3⟩
    · rw [h1, List.append_nil]
      exact ⟨ih1, fun a ha => hp a (ih2 a ha)⟩
    · rw [h1]
      refine ⟨List.nodup_append.2 ⟨ih1, by simp, ?_⟩, ?_⟩
      · intro a ha b hb e
        simp only [List.mem_singleton] at hb
        subst hb; subst e
        rw [ih2 _ ha] at h2
        cases h2
      · intro a ha
        rcases List.mem_append.1 ha with ha | ha
        · exact hp a (ih2 a ha)
        · simp only [List.mem_singleton] at ha
          subst ha; exact h3

theorem mem_calls {a : OpId} : a ∈ calls tr ↔ Invoked tr a := by
  unfold calls Invoked
  rw [List.mem_filterMap]
  constructor
  · rintro ⟨e, he, h⟩
    cases e <;> simp at h
    subst h
    exact ⟨_, he⟩
  · rintro ⟨op, h⟩
    exact ⟨_, h, rfl⟩

theorem length_le_of_nodup {l m : List OpId} (h : l.Nodup) (hs : ∀ a ∈ l, a ∈ m) : l.length ≤ m.length := by
  induction l generalizing m with
  | nil => simp
  | cons a l ih =>
    rw [List.nodup_cons] at h
    have ha := hs a (by simp)
    have := ih (m := m.erase a) h.2 fun b hb =>
      (List.mem_erase_of_ne (by rintro rfl; exact h.1 hb)).2 (hs b (by simp [hb]))
    rw [List.length_erase_of_mem ha] at this
    have := List.length_pos_of_mem ha
    simp only [List.length_cons]
    omega

theorem Run.claims_le (h : Run w cap tr s) : claims tr ≤ (calls tr).length := by
  rw [claims_eq]
  obtain ⟨h1, h2⟩ := h.exec.claimOps
  refine length_le_of_nodup h1 fun a ha => ?_
  rw [mem_calls]
  refine Classical.byContradiction fun hn => ?_
  have := h2 a ha
  rw [h.idle hn] at this
  cases this

theorem Tally.sum_le {l : List OpId} {k : Nat}
    (h : ∀ a, t.steps a ≤ 13 * (1 + k + t.spurious a + t.waits a)) :
    (l.map t.steps).sum ≤ 13 * (l.length * (1 + k) + (l.map t.spurious).sum + (l.map t.waits).sum) := by
  induction l with
  | nil => simp
  | cons a l ih =>
    have := h a
    simp only [List.map_cons, List.sum_cons, List.length_cons, Nat.add_mul, Nat.one_mul]
    omega

end

end Thingbuf
