import Verif.ChanSeqAt
/-!
# Sequential use of the channel: the state between calls
-/

namespace Thingbuf.Chan

open Queue (QSt)

variable {w : Nat} {V W : Type}

/-- Between two calls the state `s` of the channel represents the state `σ` of the specification. The send futures in
`fs` are at rest; `i`: the number of the next step. -/
structure Rel (c : Config W) (s : State w V W) (σ : Spec V W) (i : Nat) (fs : Nat → Prop) : Prop where
  core : ∃ H, CoreAt w c.cap s.core H σ.msgs σ.closed i
  cell : CellAt s.cell (if σ.senders = [] then Cell.TX_CLOSED else Cell.WAITING) σ.rxWaker i
  queue : QAt s.queue σ.waiting fs σ.next i σ.closed
  qopen : σ.rx = true → s.queue.st = qst σ.waiting σ.stored ∧ s.queue.rxGone = false
  stored : σ.waiting ≠ [] → σ.stored = false ∧ σ.rx = true
  handles : s.handles = σ.senders
  count : s.txCount = σ.senders.length
  hlt : ∀ h ∈ σ.senders, h < σ.next
  calls : s.calls = σ.futs
  futs : ∀ x ∈ σ.futs, x.1 < σ.next ∧ x.2 ∈ σ.senders
  snd : ∀ k, fs k → s.snd k = .waiting
  sfresh : ∀ k, σ.next ≤ k → s.snd k = .off
  closer : s.closer = if σ.senders = [] then .done else .none
  rx : if σ.rx then ∃ p, s.rx = .idle p else s.rx = .gone
  refs : s.refs = []
  ref : ∀ a, i ≤ a → s.ref a = .off
  closed : σ.closed = true ↔ σ.senders = [] ∨ σ.rx = false

/-- The send futures of `σ`. -/
def Spec.keys (σ : Spec V W) (k : Nat) : Prop := k ∈ σ.futs.map Prod.fst

variable {c : Config W} {s : State w V W} {σ : Spec V W} {i j k : Nat} {fs : Nat → Prop} {env : Env V}

theorem Rel.init : Rel c (State.init w V W) Spec.init 0 (Spec.init : Spec V W).keys where
  core := ⟨0, CoreAt.init⟩
  cell := ⟨rfl, rfl, fun _ _ => rfl⟩
  queue := QAt.init.congr fun k => by simp [Spec.keys, Spec.init]
  qopen := fun _ => ⟨rfl, rfl⟩
  stored := fun h => absurd rfl h
  handles := rfl
  count := rfl
  hlt := by simp [Spec.init]
  calls := rfl
  futs := by simp [Spec.init]
  snd := by simp [Spec.init, Spec.keys]
  sfresh := fun _ _ => rfl
  closer := rfl
  rx := by simp [Spec.init, State.init]
  refs := rfl
  ref := fun _ _ => rfl
  closed := by simp [Spec.init]

theorem CoreAt.mono {cap : Nat} {s : Thingbuf.State w V} {H n m : Nat} {q : List V} {cl : Bool} (h : CoreAt w cap s H q cl n)
    (hm : n ≤ m) : CoreAt w cap s H q cl m := { h with fresh := fun a ha => h.fresh a (Nat.le_trans hm ha) }

theorem CoreAt.goto {cap : Nat} {s : Thingbuf.State w V} {H n m a : Nat} {q : List V} {cl : Bool} {p : PC w}
    (h : CoreAt w cap s H q cl n) (hm : n ≤ m) (ha : a < m) : CoreAt w cap (s.goto a p) H q cl m :=
  h.pcs rfl rfl rfl rfl fun b hb => by
    have : b ≠ a := by omega
    rw [goto_pc_ne _ _ this]
    exact h.fresh b (by omega)

theorem CellAt.mono {s : Cell.State W} {l : Cell.Bits} {u : Option W} {n m : Nat} (h : CellAt s l u n) (hm : n ≤ m) :
    CellAt s l u m := { h with fresh := fun a ha => h.fresh a (Nat.le_trans hm ha) }

theorem Rel.mono (h : Rel c s σ i fs) (hj : i ≤ j) : Rel c s σ j fs :=
  { h with
    core := h.core.imp fun _ h => h.mono hj
    cell := h.cell.mono hj
    queue := h.queue.mono (Nat.le_refl _) hj id
    ref := fun a ha => h.ref a (Nat.le_trans hj ha) }

theorem Rel.setCore (h : Rel c s σ i fs) {H : Nat} {cs : Thingbuf.State w V} (hc : CoreAt w c.cap cs H σ.msgs σ.closed i) :
    Rel c { s with core := cs } σ i fs := { h with core := ⟨H, hc⟩ }

theorem Rel.setSnd (h : Rel c s σ i fs) (hf : ¬ fs k) (hk : k < σ.next) (p : SPC) :
    Rel c { s with snd := upd s.snd k p } σ i fs :=
  { h with
    snd := fun m hm => by
      have : m ≠ k := by rintro rfl; exact hf hm
      simpa [upd_ne _ _ this] using h.snd m hm
    sfresh := fun m hm => by
      have : m ≠ k := by omega
      simpa [upd_ne _ _ this] using h.sfresh m hm }

/-- All futures but `k`. -/
def Spec.others (σ : Spec V W) (k : Nat) (m : Nat) : Prop := σ.keys m ∧ m ≠ k

theorem Spec.resolved_keys (σ : Spec V W) (k m : Nat) : (σ.resolved k).keys m ↔ σ.others k m := by
  simp only [Spec.keys, Spec.resolved, Spec.others]
  rw [filter_keys]
  simp

/-- The send call `k` is over. -/
theorem Rel.resolve (h : Rel c s σ i (σ.others k)) (hk : k < σ.next) : Rel c (s.sendEnd k) (σ.resolved k) i (σ.resolved k).keys := by
  have h1 := h.setSnd (fun hh => hh.2 rfl) hk .done
  have he : (σ.resolved k).keys = σ.others k := funext fun m => propext (σ.resolved_keys k m)
  rw [he]
  exact { h1 with
    calls := by
      have := h1.calls
      simp only [State.sendEnd, State.sgoto, Spec.resolved] at *
      rw [this]
    futs := fun x hx => h1.futs x (List.mem_filter.1 hx).1 }

/-- Where a call ends. -/
def Here (s : State w V W) (i : Nat) (s' : State w V W) (e : Trace V W) (j : Nat) : Prop := s' = s ∧ e = [] ∧ j = i

theorem Then.steps {next : State w V W → Nat → Option (Act V W)} {Q : State w V W → List (Obs V W) → Nat → Prop}
    (h : Then c next Here s i Q) : ∃ s' e j, Goes c next s i s' e j ∧ Q s' (obs e) j := by
  obtain ⟨s1, e1, j1, s2, e2, j2, h1, ⟨rfl, rfl, rfl⟩, h3⟩ := h
  rw [List.append_nil] at h3
  exact ⟨_, _, _, h1, h3⟩

theorem Then.here {next : State w V W → Nat → Option (Act V W)} {Q : State w V W → List (Obs V W) → Nat → Prop}
    (h : next s i = none) (hq : Q s [] i) : Then c next Here s i Q := .stop h ⟨rfl, rfl, rfl⟩ hq

end Thingbuf.Chan
