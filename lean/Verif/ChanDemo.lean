import Verif.ChanRun

/-!
# Concrete executions of the channel

Used beside the theorems to show that hypotheses can be met, and as counterexamples.
-/

namespace Thingbuf.Chan

section
variable {w : Nat} {V W : Type} {c : Config W}

/-- One action, or as many of the given actions as possible, the first that is possible at each step. -/
inductive Item (V W : Type) where
  | one (a : Act V W)
  | all (l : List (Act V W))

/-- Some of the actions, as long as one is possible. -/
def many (c : Config W) : Nat → List (Act V W) → State w V W → Out w V W
  | 0, _, s => (s, [])
  | n + 1, l, s => match l.findSome? (step c s) with
    | none => (s, [])
    | some (s1, e1) => let (s2, e2) := many c n l s1; (s2, e1 ++ e2)

def Item.exec (c : Config W) (s : State w V W) : Item V W → Option (Out w V W)
  | .one a => step c s a
  | .all l => some (many c 60 l s)

def script (c : Config W) (s : State w V W) : List (Item V W) → Option (Out w V W)
  | [] => some (s, [])
  | i :: l => do
    let (s1, e1) ← i.exec c s
    let (s2, e2) ← script c s1 l
    pure (s2, e1 ++ e2)

theorem ExecM.many {tr : Trace V W} (l : List (Act V W)) (n : Nat) : ∀ {tr : Trace V W} {s : State w V W}, Exec c tr s →
    Exec c (tr ++ (Chan.many c n l s).2) (Chan.many c n l s).1 := by
  induction n with
  | zero => intro tr s h; simpa [Chan.many] using h
  | succ n ih =>
    intro tr s h
    simp only [Chan.many]
    split
    · simpa using h
    · rename_i s1 e1 hs
      obtain ⟨_, a, _, _, h1, _⟩ := List.findSome?_eq_some_iff.1 hs
      have := ih (h.step h1)
      simpa using this

theorem ExecM.script {l : List (Item V W)} : ∀ {tr : Trace V W} {s s' : State w V W} {evs : Trace V W}, Exec c tr s → Chan.script c s l = some (s', evs) →
    Exec c (tr ++ evs) s' := by
  induction l with
  | nil =>
    intro tr s s' evs h hr
    simp only [Chan.script, Option.some.injEq, Prod.mk.injEq] at hr
    obtain ⟨rfl, rfl⟩ := hr
    simpa using h
  | cons i l ih =>
    intro tr s s' evs h hr
    simp only [Chan.script, Option.bind_eq_bind, Option.bind_eq_some_iff, Option.pure_def, Option.some.injEq, Prod.exists, Prod.mk.injEq] at hr
    obtain ⟨s1, e1, h1, s2, e2, h2, rfl, rfl⟩ := hr
    rw [← List.append_assoc]
    refine ih ?_ h2
    cases i with
    | one a => exact h.step h1
    | all l =>
      simp only [Item.exec, Option.some.injEq] at h1
      have := ExecM.many (c := c) (tr := tr) l 60 h
      rw [h1] at this
      exact this

/-- A run from its trace. -/
theorem Run.of_script (hw : WellSized w c.cap) (l : List (Item V W)) (tr : Trace V W)
    (h : (Chan.script c (State.init w V W) l).map Prod.snd = some tr)
    (hn : nRes (coreOf tr) + 2 * c.cap < period w c.cap) : ∃ s : State w V W, Run c tr s := by
  simp only [Option.map_eq_some_iff, Prod.exists] at h
  obtain ⟨s, tr', h1, rfl⟩ := h
  exact ⟨s, hw, by simpa using Exec.init.script h1, NoStall.of_few hn⟩

end

/-- Capacity 1 or 2, 8-bit words, messages and wakers are numbers; a `std` build with debug assertions. -/
def demoC (cap : Nat) (blocking : Bool) : Config Nat := ⟨cap, ⟨true, true⟩, ⟨true, (· == ·)⟩, blocking⟩

abbrev It := Item Nat Nat

/-- A `send` on `Sender` 0; its first push operation is `a`, it sends `v`; it stops before it waits. -/
def iSend (k a v : Nat) (h : Nat := 0) (wait : Bool := true) : List It :=
  [.one (.send k h wait a), .all [.push k (.run false), .push k (.elem v)]]
def iRetry (k a v : Nat) : List It := [.one (.retry k a), .all [.push k (.run false), .push k (.elem v)]]
def iWrite (k v : Nat) : List It := [.one (.sendWrite k v)]
/-- The `SendRef` of call `k` is dropped; `o` is the number of the notify operation. -/
def iDropSend (k o : Nat) : List It := [.one (.dropSend k), .one (.sendNotify k o), .all [.sendNotifyRun k]]
/-- `start_wait` -/
def iStart (k v : Nat) : List It := [.one (.start k v), .all [.node k false]]
def iCont (k v : Nat) : List It := [.one (.cont k v), .all [.node k false]]
def iCancel (k : Nat) : List It := [.one (.cancel k), .all [.node k false]]
/-- The rest of the receiver's current call; the operations it calls get numbers from `l`. -/
def iRx (l : List Nat) : List It := [.all (l.map fun o => .rx o false)]
def iPoll (v : Nat) (l : List Nat) : List It := .one (.poll v) :: iRx l
def iTry (a : Nat) : List It := .one (.tryRecv a) :: iRx [0]
def iDropRecv (a o : Nat) : List It := [.one (.dropRecv a), .one (.recvNotify a o), .all [.recvNotifyRun a false]]
def iDropTx (h : Nat) (pan : Bool) (l : List Nat) : List It := [.one (.dropTx h pan), .all (l.map .closer)]
def iDropRx (pan : Bool) (l : List Nat) : List It := .one (.dropRx pan) :: iRx l

/-- The trace of a script. -/
def scriptTr (c : Config Nat) (l : List It) : Trace Nat Nat := ((script c (State.init 8 Nat Nat) l).map Prod.snd).getD []

theorem Run.of_scriptTr {c : Config Nat} {l : List It} (hw : WellSized 8 c.cap) (h : (script c (State.init 8 Nat Nat) l).isSome)
    (hn : nRes (coreOf (scriptTr c l)) + 2 * c.cap < period 8 c.cap) : ∃ s : State 8 Nat Nat, Run c (scriptTr c l) s := by
  refine Run.of_script hw l _ ?_ hn
  obtain ⟨x, hx⟩ := Option.isSome_iff_exists.1 h
  simp [scriptTr, hx]

/-- No sender was woken. -/
def noWake {V W : Type} (tr : Trace V W) : Bool := tr.all fun | .queue (.wake _ _ _) => false | _ => true

theorem noWake_iff {V W : Type} {tr : Trace V W} : noWake tr = true ↔ ∀ o n v, .queue (.wake o n v) ∉ tr := by
  simp only [noWake, List.all_eq_true]
  refine ⟨fun h o n v hm => by simpa using h _ hm, fun h e he => ?_⟩
  split
  · exact absurd he (h _ _ _)
  · rfl

/-- The receiver was not woken. -/
def noRxWake {V W : Type} (tr : Trace V W) : Bool := tr.all fun | .cell (.wake _ _) => false | _ => true

theorem noRxWake_iff {V W : Type} {tr : Trace V W} : noRxWake tr = true ↔ ∀ o v, .cell (.wake o v) ∉ tr := by
  simp only [noRxWake, List.all_eq_true]
  refine ⟨fun h o v hm => by simpa using h _ hm, fun h e he => ?_⟩
  split
  · exact absurd he (h _ _)
  · rfl

/-- Send call `k` has not returned. -/
def noRet {V W : Type} (k : Nat) (tr : Trace V W) : Bool := tr.all fun | .api (.retSend j _) => j != k | _ => true

theorem noRet_iff {V W : Type} {k : Nat} {tr : Trace V W} : noRet k tr = true ↔ ∀ r, .api (.retSend k r) ∉ tr := by
  simp only [noRet, List.all_eq_true]
  refine ⟨fun h r hm => by simpa using h _ hm, fun h e he => ?_⟩
  split
  · rename_i j r
    simp only [bne_iff_ne, ne_eq]
    rintro rfl
    exact h _ he
  · rfl

end Thingbuf.Chan
