import Verif.QueueLoads
import Verif.QueueHist3

/-!
# What the plain loads of the wait queue can yield

Helper lemmas for `QueueLoadsProps`: an execution in which the plain loads yield old messages is one of `ExecM true`.
-/

namespace Thingbuf.Queue

variable {W : Type} {c : Config W}

/-! ## Words -/

theorem Word.write_top (w : Word) (x : QSt) : w.top ≤ (w.write x).top := by
  unfold Word.write; split <;> simp

theorem Word.write_old (w : Word) (x : QSt) {i : Nat} (h : i ≤ w.top) : (w.write x).msg i = w.msg i := by
  unfold Word.write
  split
  · rfl
  · have : i ≠ w.top + 1 := by omega
    simp [this]

theorem Word.write_cur (w : Word) (x : QSt) : (w.write x).msg (w.write x).top = x := by
  unfold Word.write
  split
  · rename_i h; exact h.symm
  · simp

theorem Word.write_same (w : Word) {x : QSt} (h : x = w.msg w.top) : w.write x = w := by
  unfold Word.write; rw [if_pos h]

/-- A message of a word that was written is an old one or the new one. -/
theorem Word.write_cases (w : Word) (x : QSt) {i : Nat} (h : i ≤ (w.write x).top) :
    i ≤ w.top ∨ (i = (w.write x).top ∧ x ≠ w.msg w.top) := by
  unfold Word.write at *
  split at h
  · exact .inl h
  · rename_i hx
    rw [if_neg hx]
    simp only at h ⊢
    by_cases hi : i ≤ w.top
    · exact .inl hi
    · exact .inr ⟨by omega, hx⟩

theorem State.see_self (s : State W) (x : Loc) : s.see (s.get x) x = s := by
  cases x with
  | st => rfl
  | node n =>
    have : s.list.set n (fun nd => { nd with state := (s.list.node n).state }) = s.list := by
      unfold WList.set
      have : (fun m => if m = n then { s.list.node m with state := (s.list.node n).state } else s.list.node m) =
          s.list.node := by
        funext m
        split
        · rename_i h; subst h; rfl
        · rfl
      rw [this]
    simp only [State.see, State.get, this]

/-! ## The invariant -/

/-- What the next holder of the lock will know of, or what its holder knows of. -/
def LState.lv (l : LState W) : View :=
  match l.q.lock with
  | none => l.lockView
  | some t => l.view t

structure LInv (l : LState W) (q : List Nat) : Prop where
  cur : ∀ x, (l.word x).msg (l.word x).top = l.q.get x
  vTop : ∀ t x, l.view t x ≤ (l.word x).top
  lTop : ∀ x, l.lockView x ≤ (l.word x).top
  closed : ∀ i, i ≤ (l.word .st).top → (l.word .st).msg i = .closed → l.q.st = .closed
  noWait : ∀ i, l.lv .st < i → i ≤ (l.word .st).top → (l.word .st).msg i ≠ .waiting
  wait : (l.word .st).msg (l.lv .st) = .waiting → l.lv .st = (l.word .st).top ∨
    (l.q.st = .closed ∧ (q ≠ [] ∨ ∃ t, l.q.lock = some t ∧ (l.q.pc t).loose = true))
  closer : ∀ t, l.q.pc t = .cLock ∨ l.q.pc t = .cLoop ∨ (∃ n v, l.q.pc t = .cWake n v) →
    l.view t .st = (l.word .st).top
  nodeV : ∀ n, l.lv (.node n) = (l.word (.node n)).top
  own : ∀ n, l.view (.node n) (.node n) = (l.word (.node n)).top ∨
    (l.view (.node n) (.node n) + 1 = (l.word (.node n)).top ∧
      (l.word (.node n)).msg (l.view (.node n) (.node n)) = .waiting ∧ (l.q.list.node n).state ≠ .waiting)

theorem LInv.init : LInv (LState.init : LState W) [] := by
  constructor
  · intro x; cases x <;> simp [LState.init, Word.new, State.get, State.init, WList.new, Node.new]
  · simp [LState.init, Word.new]
  · simp [LState.init, Word.new]
  · simp [LState.init, Word.new]
  · simp [LState.init, Word.new]
  · simp [LState.init, Word.new]
  · simp [LState.init, Word.new]
  · simp [LState.init, Word.new, LState.lv, State.init]
  · simp [LState.init, Word.new]

theorem LInv.lvTop {l : LState W} {q : List Nat} (h : LInv l q) (x : Loc) : l.lv x ≤ (l.word x).top := by
  unfold LState.lv
  cases l.q.lock with
  | none => exact h.lTop x
  | some t => exact h.vTop t x

/-! ## Plain loads -/

/-- What a plain load does to everything but the program counter and the views. -/
structure Loaded (l : LState W) (t : Tid) (s' : State W) (q q' : List Nat) : Prop where
  pc : ∀ u, u ≠ t → s'.pc u = l.q.pc u
  lock : s'.lock = l.q.lock ∨ (l.q.lock = some t ∧ s'.lock = none)
  loose : (l.q.pc t).loose = false
  closer : ¬ (s'.pc t = .cLock ∨ s'.pc t = .cLoop ∨ (∃ n v, s'.pc t = .cWake n v))
  queue : q' = q

theorem LInv.loaded {l : LState W} {q q' : List Nat} (h : LInv l q) {t : Tid} {x : Loc} {i : Nat} {s' : State W}
    (hi : l.view t x ≤ i) (hi' : i ≤ (l.word x).top) (hd : Loaded l t s' q q') :
    LInv (l.loaded t x i s') q' := by
  obtain ⟨hpc, hlk, hlo, hcl, rfl⟩ := hd
  have hv : ∀ y, l.view t y ≤ (if y = x then i else l.view t y) := by
    intro y; split
    · rename_i hy; subst hy; exact hi
    · exact Nat.le_refl _
  have hv' : ∀ y, (if y = x then i else l.view t y) ≤ (l.word y).top := by
    intro y; split
    · rename_i hy; subst hy; exact hi'
    · exact h.vTop t y
  have hlv : ∀ y, l.lv y ≤ (l.loaded t x i s').lv y ∧
      ((l.loaded t x i s').lv y = l.lv y ∨ (l.q.lock = some t)) := by
    intro y
    unfold LState.lv LState.loaded LState.publish
    rcases hlk with h1 | ⟨h1, h2⟩
    · simp only [h1]
      cases hl : l.q.lock with
      | none => simp
      | some u =>
        by_cases hu : u = t
        · subst hu; simp; exact hv y
        · simp [hu]
    · simp only [h1, h2]; simp; exact hv y
  have hlvT : ∀ y, (l.loaded t x i s').lv y ≤ (l.word y).top := by
    intro y
    unfold LState.lv LState.loaded LState.publish
    rcases hlk with h1 | ⟨h1, h2⟩
    · simp only [h1]
      cases hl : l.q.lock with
      | none => simpa using h.lTop y
      | some u =>
        by_cases hu : u = t
        · subst hu; simp; exact hv' y
        · simp [hu]; exact h.vTop u y
    · simp only [h1, h2]; simp; exact hv' y
  constructor
  · intro y
    have := h.cur y
    cases y <;> exact this
  · intro u y
    simp only [LState.loaded]
    split
    · exact hv' y
    · exact h.vTop u y
  · intro y
    simp only [LState.loaded, LState.publish]
    split
    · exact hv' y
    · exact h.lTop y
  · exact h.closed
  · intro j hj
    exact h.noWait j (Nat.lt_of_le_of_lt (hlv .st).1 hj)
  · intro hw
    have he : (l.loaded t x i s').lv .st = l.lv .st := by
      rcases Nat.lt_or_ge (l.lv .st) ((l.loaded t x i s').lv .st) with h1 | h1
      · exact absurd hw (h.noWait _ h1 (hlvT .st))
      · exact Nat.le_antisymm h1 (hlv .st).1
    rw [he] at hw ⊢
    rcases h.wait hw with h1 | ⟨h1, h2⟩
    · exact .inl h1
    · refine .inr ⟨h1, h2.imp_right ?_⟩
      rintro ⟨u, h3, h4⟩
      have hne : u ≠ t := by rintro rfl; rw [hlo] at h4; cases h4
      refine ⟨u, ?_, ?_⟩
      · simp only [LState.loaded]
        rcases hlk with h5 | ⟨h5, _⟩
        · rw [h5]; exact h3
        · rw [h5] at h3; simp at h3; exact absurd h3.symm hne
      · simp only [LState.loaded]; rw [hpc u hne]; exact h4
  · intro u hu
    simp only [LState.loaded] at hu ⊢
    by_cases hut : u = t
    · subst hut; exact absurd hu hcl
    · rw [hpc u hut] at hu
      simp only [hut, if_false]
      exact h.closer u hu
  · intro n
    have h1 := h.nodeV n
    have h2 := (hlv (.node n)).1
    have h3 := hlvT (.node n)
    simp only [LState.loaded] at h2 h3 ⊢
    omega
  · intro n
    by_cases hu : Tid.node n = t
    · subst hu
      simp only [LState.loaded, if_true]
      have h1 := hv (.node n)
      have h2 := hv' (.node n)
      rcases h.own n with h3 | ⟨h3, h4, h5⟩
      · left; omega
      · by_cases he : (if Loc.node n = x then i else l.view (.node n) (.node n)) = l.view (.node n) (.node n)
        · right; rw [he]; exact ⟨h3, h4, h5⟩
        · left; omega
    · simp only [LState.loaded, hu, if_false]
      exact h.own n

/-- A plain load is a step of `Queue` or one of `Stale`. -/
theorem LInv.load_sim {tr : Trace W} {l : LState W} (h : LInv l (queueOf tr)) (hx : ExecM true c tr l.q) {a : Act W} {x : Loc}
    (hp : (l.q.pc a.tid).plain a.tid = some x) {i : Nat} (hi : l.view a.tid x ≤ i) (hi' : i ≤ (l.word x).top)
    {s' : State W} {evs : Trace W} (hs : step c (l.q.see ((l.word x).msg i) x) a = some (s', evs)) :
    (step c l.q a = some ({ s' with st := l.q.st, list := l.q.list }, evs) ∨
      (evs = [] ∧ ∃ p, Stale l.q a.tid p ∧ ({ s' with st := l.q.st, list := l.q.list } : State W) = l.q.goto a.tid p)) ∧
      Loaded l a.tid s' (queueOf tr) (queueOf (tr ++ evs)) := by
  have hinv := hx.inv
  -- the load yields the value that is there
  have same : ((l.word x).msg i = l.q.get x) →
      (step c l.q a = some ({ s' with st := l.q.st, list := l.q.list }, evs) ∨
        (evs = [] ∧ ∃ p, Stale l.q a.tid p ∧ ({ s' with st := l.q.st, list := l.q.list } : State W) = l.q.goto a.tid p)) ∧
        Loaded l a.tid s' (queueOf tr) (queueOf (tr ++ evs)) := by
    intro he
    rw [he, State.see_self] at hs
    have hx' := hs
    obtain ⟨p, st, lk, li, b, rx, rfl, ht⟩ := step_tr' hs
    generalize a.tid = t at *
    have key : st = l.q.st ∧ li = l.q.list ∧ (lk = l.q.lock ∨ (l.q.lock = some t ∧ lk = none)) ∧
        (l.q.pc t).loose = false ∧ ¬ (p = .cLock ∨ p = .cLoop ∨ (∃ n v, p = .cWake n v)) ∧
        queueOf (tr ++ evs) = queueOf tr := by
      have hlc := hinv.lockC t
      rw [queueOf_append]
      cases ht <;> first
        | (simp_all [PC.plain, PC.loose, PC.crit, List.foldl, qstep]; done)
        | (exfalso; rename_i hl ha; rcases ha <;> simp_all [PC.plain])
        | (exfalso; generalize l.q.pc t = y at *; rename_i hl ha; cases ha <;> simp_all [PC.plain])
    obtain ⟨rfl, rfl, h1, h2, h3, h4⟩ := key
    refine ⟨.inl hx', ?_, h1, h2, by simpa [State.after] using h3, h4⟩
    intro u hu; simp [State.after, hu]
  -- the load yields an old value
  by_cases he : (l.word x).msg i = l.q.get x
  · exact same he
  · clear same
    have hne : i ≠ (l.word x).top := by rintro rfl; exact he (h.cur x)
    have hlt : i < (l.word x).top := by omega
    obtain ⟨p, st, lk, li, b, rx, rfl, ht⟩ := step_tr' hs
    generalize a.tid = t at *
    suffices hst : ∃ p', Stale l.q t p' ∧ evs = [] ∧ p = p' ∧ lk = l.q.lock ∧ b = l.q.borrows ∧ rx = l.q.rxGone by
      obtain ⟨p', h1, rfl, rfl, rfl, rfl, rfl⟩ := hst
      have hps := h1.pcs
      refine ⟨?_, ?_, .inl rfl, ?_, ?_, by simp⟩
      · refine .inr ⟨rfl, p, h1, ?_⟩
        show ({ (l.q.see ((l.word x).msg i) x).after t p st l.q.lock li l.q.borrows l.q.rxGone with
            st := l.q.st, list := l.q.list } : State W) = l.q.goto t p
        cases x <;> rfl
      · intro u hu; cases x <;> simp [State.after, hu, State.see]
      · generalize l.q.pc t = y at hps; cases hps <;> rfl
      · simp only [State.after, if_true]
        generalize l.q.pc t = y at hps; cases hps <;> simp
    have hpcs : (l.q.see ((l.word x).msg i) x).pc t = l.q.pc t := by cases x <;> rfl
    cases hpc : l.q.pc t <;> rw [hpc] at hp <;> simp only [PC.plain] at hp <;> try (cases hp; done)
    case startLoad v =>
      cases hp
      have hown := (hinv.lockC t).2 (by rw [hpc]; rfl)
      have hlv : l.lv = l.view t := by unfold LState.lv; rw [hown]
      cases ht <;> (try (simp_all; done))
      case acq ha => rw [hpcs, hpc] at ha; cases ha
      rename_i n v' hpc'
      have hv' : v' = v := by rw [hpcs, hpc] at hpc'; simpa using hpc'.symm
      subst hv'
      refine ⟨_, ?_, rfl, rfl, rfl, rfl, rfl⟩
      simp only [State.see]
      have hcl := h.closed i hi'
      have hcur := h.cur .st
      simp only [State.get] at hcur he
      have hnw := h.noWait (l.word .st).top (by rw [hlv]; omega) (Nat.le_refl _)
      rw [hcur] at hnw
      cases hm : (l.word .st).msg i with
      | empty => exact .start n _ _ hpc (.inl rfl) hnw
      | waking => exact .start n _ _ hpc (.inr rfl) hnw
      | closed => exact absurd (hm.trans (hcl hm).symm) he
      | waiting =>
        have hiv : i = l.lv .st := by
          rcases Nat.lt_or_ge (l.lv .st) i with h1 | h1
          · exact absurd hm (h.noWait i h1 hi')
          · rw [hlv] at h1 ⊢; omega
        rw [hiv] at hm
        rcases h.wait hm with h1 | ⟨h1, h2⟩
        · omega
        · refine .startWaiting n _ hpc h1 ?_
          have hq : queueOf tr ≠ [] := by
            rcases h2 with h2 | ⟨u, h2, h3⟩
            · exact h2
            · rw [hown] at h2; cases h2; rw [hpc] at h3; cases h3
          cases hem : l.q.list.isEmpty with
          | false => rfl
          | true =>
            have := hinv.rep.isEmpty
            rw [hem] at this
            exact absurd (List.isEmpty_iff.1 this.symm) hq
    case nLoad =>
      cases hp
      cases ht <;> (try (simp_all; done))
      case acq ha => rw [hpcs, hpc] at ha; cases ha
      rename_i o hpc'
      refine ⟨_, ?_, rfl, rfl, rfl, rfl, rfl⟩
      refine .notify o _ hpc ?_
      intro hc
      exact hinv.notClosed (t := .op o) (by rw [hpc]; rfl) (h.closed i hi' hc)
    case contLoad v =>
      cases t with
      | op o => cases hp
      | node n =>
        cases hp
        have hw : (l.word (.node n)).msg i = .waiting := by
          rcases h.own n with h1 | ⟨h1, h2, _⟩
          · omega
          · have : i = l.view (.node n) (.node n) := by omega
            rw [this]; exact h2
        have hsee : (((l.q.see ((l.word (.node n)).msg i) (.node n))).list.node n).state = .waiting := by
          simp [State.see, hw]
        rw [hpc] at hpcs
        cases ht <;> (try (simp_all; done))
        case acq ha => rw [hpcs] at ha; cases ha
        rename_i v' hpc' hs'
        rw [hpcs] at hpc'
        cases hpc'
        exact ⟨_, .cont n _ hpc, rfl, rfl, rfl, rfl, rfl⟩
    case contReload v =>
      cases t with
      | op o => cases hp
      | node n =>
        cases hp
        exfalso
        have hown := (hinv.lockC (.node n)).2 (by rw [hpc]; rfl)
        have hlv : l.lv = l.view (.node n) := by unfold LState.lv; rw [hown]
        have := h.nodeV n
        rw [hlv] at this; omega
    case remCheck =>
      cases t with
      | op o => cases hp
      | node n =>
        cases hp
        have hw : (l.word (.node n)).msg i = .waiting := by
          rcases h.own n with h1 | ⟨h1, h2, _⟩
          · omega
          · have : i = l.view (.node n) (.node n) := by omega
            rw [this]; exact h2
        have hsee : (((l.q.see ((l.word (.node n)).msg i) (.node n))).list.node n).state = .waiting := by
          simp [State.see, hw]
        rw [hpc] at hpcs
        cases ht <;> (try (simp_all; done))
        case acq ha => rw [hpcs] at ha; cases ha
        exact ⟨_, .rem n hpc, rfl, rfl, rfl, rfl, rfl⟩

/-! ## The other steps -/

section
variable {s : State W} {q : List Nat} {t : Tid} {p : PC W} {st : QSt} {lk : Option Tid}
  {li : WList W} {b : List Nat} {rx : Bool} {evs : Trace W}

theorem SInv.inq_waiting (h : SInv s q) {n : Nat} (hn : n ∈ q) : (s.list.node n).state = .waiting := by
  have hx := h.node n
  cases hp : s.pc (.node n) <;> rw [hp] at hx <;> simp only [NodeOk, hn] at hx
  case idle l => cases l <;> simp_all [NodeOk]
  all_goals simp_all

/-- How a step changes the state word. -/
structure StFacts (s : State W) (t : Tid) (st : QSt) (lk : Option Tid) : Prop where
  sc : st ≠ s.st → (s.pc t).sc s.list.isEmpty = true
  waiting : st ≠ s.st → st = .waiting → s.lock = some t
  leave : s.st = .waiting → st ≠ .waiting → (s.pc t = .cSwap ∧ st = .closed) ∨ s.lock = some t
  closed : s.st = .closed → st = .closed
  lock : lk = s.lock ∨ (s.lock = none ∧ lk = some t) ∨ (s.lock = some t ∧ lk = none)

theorem Inv.stFacts (h : Inv s q) (ht : Tr c s t p st lk li b rx evs) : StFacts s t st lk := by
  have hlk := (h.lockC t).2
  have hnc : (s.pc t).inNotify = true → s.st ≠ .closed := h.notClosed
  have hloc := h.loc t
  cases ht
  case acq hl ha => exact ⟨by simp, by simp, by simp_all, id, .inr (.inl ⟨hl, rfl⟩)⟩
  all_goals
    constructor <;> simp_all [PC.sc, PC.crit, PC.inNotify, LocalSt]
  case contAssert.lock n v _ _ => by_cases hl : s.lock = some (.node n) <;> simp [hl]
  case nFast.sc hq _ => rcases hq with rfl | rfl <;> simp
  case nFast.leave hq _ => rcases hq with rfl | rfl <;> simp

/-- The queue is closed, and the list is not empty or somebody is about to change it: this goes on, until the call of
`close` empties the list or a removal finds it empty. -/
theorem Inv.closed_keep (h : Inv s q) (ht : Tr c s t p st lk li b rx evs) (hcl : s.st = .closed)
    (hq : q ≠ [] ∨ ∃ u, s.lock = some u ∧ (s.pc u).loose = true) :
    (evs.foldl qstep q ≠ [] ∨ ∃ u, lk = some u ∧ ((s.after t p st lk li b rx).pc u).loose = true) ∨
      s.pc t = .cLoop ∨ (s.pc t = .remCas ∧ s.list.isEmpty = true) := by
  have hg := h.good ht
  have hnc : (s.pc t).inNotify = true → s.st ≠ .closed := h.notClosed
  have hf := h.stFacts ht
  have hlc' := (h.step ht).lockC t
  -- the holder is somebody else
  by_cases hu : ∃ u, u ≠ t ∧ s.lock = some u ∧ (s.pc u).loose = true
  · obtain ⟨u, h1, h2, h3⟩ := hu
    left; right
    refine ⟨u, ?_, by simp [State.after, h1, h3]⟩
    rcases hf.lock with h4 | ⟨h4, _⟩ | ⟨h4, _⟩
    · rw [h4, h2]
    · rw [h2] at h4; cases h4
    · rw [h2] at h4; simp at h4; exact absurd h4 h1
  · have hq' : q ≠ [] ∨ (s.lock = some t ∧ (s.pc t).loose = true) := by
      rcases hq with h1 | ⟨u, h1, h2⟩
      · exact .inl h1
      · by_cases hut : u = t
        · subst hut; exact .inr ⟨h1, h2⟩
        · exact absurd ⟨u, hut, h1, h2⟩ hu
    clear hu hq
    have hem := h.rep.isEmpty
    cases hg
    case enq => left; left; simp [fold_touch_append, qstep]
    case rem n ns hpc hn =>
      left; right
      refine ⟨.node n, ?_, by simp [State.after, PC.loose]⟩
      have h1 := hlc'.2 (by simp [State.after, PC.crit])
      exact h1
    case set n v hpc =>
      left; right
      refine ⟨.node n, ?_, by simp [State.after, PC.loose]⟩
      have h1 := hlc'.2 (by simp [State.after, PC.crit])
      exact h1
    case loopWaiting n v hpc =>
      left; right
      refine ⟨.node n, ?_, by simp [State.after, PC.loose]⟩
      have h1 := hlc'.2 (by simp [State.after, PC.crit])
      exact h1
    case remEmpty => simp_all
    case remSkip n hpc he =>
      by_cases hqe : q = []
      · right; right; exact ⟨hpc, by rw [hem, hqe]; rfl⟩
      · left; left; exact hqe
    case cDeq hpc _ _ _ _ => right; left; exact hpc
    case deq hpc _ _ _ _ => exact absurd hcl (hnc (by rw [hpc]; rfl))
    case nStoreEmpty hpc _ => exact absurd hcl (hnc (by rw [hpc]; rfl))
    case nStoreSkip hpc _ => exact absurd hcl (hnc (by rw [hpc]; rfl))
    all_goals
      left; left
      rcases hq' with h1 | ⟨h1, h2⟩
      · simpa [qstep] using h1
      · exfalso; simp_all [PC.loose]

/-- A call that has closed the queue was about to do so, or had done so. -/
theorem Tr.closer (ht : Tr c s t p st lk li b rx evs)
    (hp : p = .cLock ∨ p = .cLoop ∨ ∃ n v, p = .cWake n v) :
    s.pc t = .cSwap ∨ s.pc t = .cLock ∨ s.pc t = .cLoop ∨ ∃ n v, s.pc t = .cWake n v := by
  rcases hp with rfl | rfl | ⟨n, v, rfl⟩ <;> cases ht <;> (try (simp_all; done))
  all_goals
    rename_i ha
    generalize s.pc t = y at *
    cases ha <;> simp_all

theorem Inv.node_change (h : Inv s q) (ht : Tr c s t p st lk li b rx evs) {m : Nat}
    (hm : (li.node m).state ≠ (s.list.node m).state) :
    s.lock = some t ∧ (t = .node m ∨ ((∃ o, t = .op o) ∧ (s.list.node m).state = .waiting ∧ (li.node m).state ≠ .waiting)) := by
  have hlc := (h.lockC t).2
  rcases h.data ht m with ⟨h1, _⟩ | ⟨v, rfl, h1, _⟩ | ⟨v, u, _, _, _, _, h1, _⟩ | ⟨o, q', v, ns, rfl, h1, h2, h3, h4, h5, _⟩ |
    ⟨o, q', v, ns, rfl, h1, h2, h3, h4, h5, _⟩
  · exact absurd h1 hm
  · exact ⟨hlc (by rw [h1]; rfl), .inl rfl⟩
  · exact absurd h1 hm
  · exact ⟨hlc (by rw [h1]; rfl), .inr ⟨⟨o, rfl⟩, h.inq_waiting (by rw [h3]; simp), by rw [h5]; simp⟩⟩
  · exact ⟨hlc (by rw [h1]; rfl), .inr ⟨⟨o, rfl⟩, h.inq_waiting (by rw [h3]; simp), by rw [h5]; simp⟩⟩

end

theorem LInv.synced {l : LState W} {q : List Nat} (h : LInv l q) (hinv : Inv l.q q) {t : Tid} {p : PC W} {st : QSt}
    {lk : Option Tid} {li : WList W} {b : List Nat} {rx : Bool} {evs : Trace W} (ht : Tr c l.q t p st lk li b rx evs) :
    LInv (l.synced t (l.q.after t p st lk li b rx)) (evs.foldl qstep q) := by
  have hf := hinv.stFacts ht
  generalize hs' : l.q.after t p st lk li b rx = s'
  have hst : s'.st = st := by rw [← hs']; rfl
  have hlk : s'.lock = lk := by rw [← hs']; rfl
  have hli : s'.list = li := by rw [← hs']; rfl
  have hpc : ∀ u, u ≠ t → s'.pc u = l.q.pc u := by intro u hu; rw [← hs']; simp [State.after, hu]
  have hpt : s'.pc t = p := by rw [← hs']; simp [State.after]
  have hsame : ∀ x, s'.get x = l.q.get x → (l.word x).write (s'.get x) = l.word x := by
    intro x hx; exact Word.write_same _ (by rw [hx, h.cur])
  have hv : ∀ x, l.view t x ≤ l.newView t s' x := by
    intro x
    unfold LState.newView
    split
    · exact Nat.le_trans (h.vTop t x) (Word.write_top _ _)
    · split
      · exact Nat.le_max_left _ _
      · exact Nat.le_refl _
  have hvT : ∀ x, l.newView t s' x ≤ ((l.word x).write (s'.get x)).top := by
    intro x
    unfold LState.newView
    split
    · exact Nat.le_refl _
    · split
      · exact Nat.le_trans (Nat.max_le.2 ⟨h.vTop t x, h.lTop x⟩) (Word.write_top _ _)
      · exact Nat.le_trans (h.vTop t x) (Word.write_top _ _)
  have hacq : l.q.lock = none → s'.lock = some t → ∀ x, l.lockView x ≤ l.newView t s' x := by
    intro h1 h2 x
    unfold LState.newView
    split
    · exact Nat.le_trans (h.lTop x) (Word.write_top _ _)
    · rw [if_pos ⟨by rw [h1]; simp, h2⟩]
      exact Nat.le_max_right _ _
  -- the view that counts
  have hlv : ∀ x, l.lv x ≤ (l.synced t s').lv x ∧ (l.synced t s').lv x ≤ ((l.word x).write (s'.get x)).top ∧
      (l.q.lock = some t → (l.synced t s').lv x = l.newView t s' x) := by
    intro x
    unfold LState.lv LState.synced LState.publish
    simp only [hlk]
    rcases hf.lock with h1 | ⟨h1, h2⟩ | ⟨h1, h2⟩
    · rw [h1]
      cases hl : l.q.lock with
      | none => simp; exact Nat.le_trans (h.lTop x) (Word.write_top _ _)
      | some u =>
        by_cases hu : u = t
        · subst hu; simp; exact ⟨hv x, hvT x⟩
        · simp [hu]; exact Nat.le_trans (h.vTop u x) (Word.write_top _ _)
    · rw [h1, h2]; simp
      exact ⟨hacq h1 (by rw [hlk, h2]) x, hvT x⟩
    · rw [h1, h2]; simp; exact ⟨hv x, hvT x⟩
  have hsc : s'.st ≠ l.q.st ∨ (l.q.pc t).sc l.q.list.isEmpty = true →
      l.newView t s' .st = ((l.word .st).write (s'.get .st)).top := by
    intro h1
    unfold LState.newView
    rw [if_pos]
    rcases h1 with h1 | h1
    · exact .inl h1
    · exact .inr ⟨rfl, h1⟩
  have hclosed : l.q.st = .closed → s'.st = .closed := by intro h1; rw [hst]; exact hf.closed h1
  have hcl_same : l.q.st = .closed → (l.word .st).write (s'.get .st) = l.word .st := by
    intro h1
    exact hsame .st (by simp only [State.get]; rw [hclosed h1, h1])
  constructor
  · intro x; exact Word.write_cur _ _
  · intro u x
    simp only [LState.synced]
    split
    · exact hvT x
    · exact Nat.le_trans (h.vTop u x) (Word.write_top _ _)
  · intro x
    simp only [LState.synced, LState.publish]
    split
    · exact hvT x
    · exact Nat.le_trans (h.lTop x) (Word.write_top _ _)
  · intro i hi hm
    simp only [LState.synced] at hi hm ⊢
    rcases Word.write_cases _ _ hi with h1 | ⟨h1, _⟩
    · rw [Word.write_old _ _ h1] at hm
      exact hclosed (h.closed i h1 hm)
    · rw [h1, Word.write_cur] at hm
      exact hm
  · intro i hi hi' hm
    simp only [LState.synced] at hi' hm
    rcases Word.write_cases _ _ hi' with h1 | ⟨h1, h2⟩
    · rw [Word.write_old _ _ h1] at hm
      exact h.noWait i (Nat.lt_of_le_of_lt (hlv .st).1 hi) h1 hm
    · rw [h1, Word.write_cur] at hm
      rw [h.cur] at h2
      simp only [State.get] at hm h2
      have h3 := hf.waiting (by rw [← hst]; exact h2) (by rw [← hst]; exact hm)
      have h4 := (hlv .st).2.2 h3
      rw [hsc (.inl h2)] at h4
      rw [h4] at hi
      exact absurd hi (by omega)
  · intro hw
    replace hw : ((l.word .st).write (s'.get .st)).msg ((l.synced t s').lv .st) = .waiting := hw
    show (l.synced t s').lv .st = ((l.word .st).write (s'.get .st)).top ∨ (s'.st = .closed ∧
      (evs.foldl qstep q ≠ [] ∨ ∃ u, s'.lock = some u ∧ (s'.pc u).loose = true))
    by_cases htop : (l.synced t s').lv .st = ((l.word .st).write (s'.get .st)).top
    · exact .inl htop
    · right
      rcases Word.write_cases _ _ (hlv .st).2.1 with h1 | ⟨h1, _⟩
      · have hw' : (l.word .st).msg ((l.synced t s').lv .st) = .waiting := by
          rw [Word.write_old _ _ h1] at hw; exact hw
        have he : (l.synced t s').lv .st = l.lv .st := by
          rcases Nat.lt_or_ge (l.lv .st) ((l.synced t s').lv .st) with h2 | h2
          · exact absurd hw' (h.noWait _ h2 h1)
          · exact Nat.le_antisymm h2 (hlv .st).1
        have hlockt : l.q.lock = some t → s'.st ≠ l.q.st ∨ (l.q.pc t).sc l.q.list.isEmpty = true → False := by
          intro h3 h4
          rw [(hlv .st).2.2 h3, hsc h4] at htop
          exact htop rfl
        rw [he] at hw'
        rcases h.wait hw' with h2 | ⟨h2, h3⟩
        · have hwt : l.q.st = .waiting := by have := h.cur .st; rw [← h2, hw'] at this; exact this.symm
          have hch : s'.st ≠ l.q.st := by
            intro h3
            have := hsame .st h3
            rw [this] at htop
            exact htop (he.trans h2)
          rcases hf.leave hwt (by rw [hwt, hst] at hch; exact hch) with ⟨h3, h4⟩ | h3
          · refine ⟨by rw [hst, h4], ?_⟩
            have hq : evs.foldl qstep q = q := by
              clear hsc hlv hv hvT hsame hacq hlockt
              cases ht <;> simp_all [qstep]
            rw [hq]
            rcases hinv.wait hwt with h5 | ⟨u, h5, h6⟩
            · exact .inl h5
            · right
              have hut : u ≠ t := by rintro rfl; rw [h3] at h6; cases h6
              refine ⟨u, ?_, by rw [hpc u hut]; exact h6⟩
              rcases hf.lock with h7 | ⟨h7, _⟩ | ⟨h7, _⟩
              · rw [hlk, h7, h5]
              · rw [h5] at h7; cases h7
              · rw [h5] at h7; simp at h7; exact absurd h7 hut
          · exact (hlockt h3 (.inl hch)).elim
        · refine ⟨hclosed h2, ?_⟩
          rcases hinv.closed_keep ht h2 h3 with h4 | h4 | ⟨h4, h5⟩
          · rw [hs', ← hlk] at h4; exact h4
          · exfalso
            have h5 := h.closer t (.inr (.inl h4))
            have h6 := (hinv.lockC t).2 (by rw [h4]; rfl)
            have h7 : l.lv .st = (l.word .st).top := by unfold LState.lv; rw [h6]; exact h5
            rw [h7, h.cur .st] at hw'
            simp only [State.get] at hw'
            rw [h2] at hw'; cases hw'
          · exact (hlockt ((hinv.lockC t).2 (by rw [h4]; rfl)) (.inr (by rw [h4, h5]; rfl))).elim
      · exact absurd h1 htop
  · intro u hu
    simp only [LState.synced] at hu ⊢
    by_cases hut : u = t
    · subst hut
      simp only [if_true]
      rw [hpt] at hu
      rcases ht.closer hu with h1 | h1
      · exact hsc (.inr (by rw [h1]; rfl))
      · have h2 := h.closer u h1
        have h3 : l.q.st = .closed := by
          have := hinv.loc u
          rcases h1 with h1 | h1 | ⟨n, v, h1⟩ <;> rw [h1] at this <;> exact this
        have h4 := hv .st
        have h5 := hvT .st
        rw [hcl_same h3] at h5 ⊢
        omega
    · simp only [hut, if_false]
      rw [hpc u hut] at hu
      have h2 := h.closer u hu
      have h3 : l.q.st = .closed := by
        have := hinv.loc u
        rcases hu with h1 | h1 | ⟨n, v, h1⟩ <;> rw [h1] at this <;> exact this
      rw [hcl_same h3]; exact h2
  · intro n
    have h1 := h.nodeV n
    have h2 := (hlv (.node n)).1
    have h3 := (hlv (.node n)).2.1
    by_cases hc : s'.get (.node n) = l.q.get (.node n)
    · show _ = ((l.word (.node n)).write (s'.get (.node n))).top
      rw [hsame _ hc] at h3 ⊢
      omega
    · have h4 : (li.node n).state ≠ (l.q.list.node n).state := by simp only [State.get, hli] at hc; exact hc
      rw [(hlv (.node n)).2.2 (hinv.node_change ht h4).1]
      unfold LState.newView
      rw [if_pos (.inl hc)]
      rfl
  · intro n
    by_cases hc : s'.get (.node n) = l.q.get (.node n)
    · have h1 := h.own n
      have hc' : (s'.list.node n).state = (l.q.list.node n).state := hc
      simp only [LState.synced]
      rw [hsame _ hc, hc']
      by_cases hu : Tid.node n = t
      · simp only [hu, if_true]
        have h2 := hv (.node n)
        have h3 := hvT (.node n)
        rw [hsame _ hc] at h3
        rw [hu] at h1
        rcases h1 with h1 | ⟨h1, h4, h5⟩
        · left; omega
        · by_cases he : l.newView t s' (.node n) = l.view t (.node n)
          · right; rw [he]; exact ⟨h1, h4, h5⟩
          · left; omega
      · simp only [hu, if_false]; exact h1
    · have h4 : (li.node n).state ≠ (l.q.list.node n).state := by simp only [State.get, hli] at hc; exact hc
      simp only [LState.synced]
      rcases (hinv.node_change ht h4).2 with h5 | ⟨⟨o, h5⟩, h6, h7⟩
      · left
        rw [if_pos h5.symm]
        unfold LState.newView
        rw [if_pos (.inl hc)]
      · right
        have hne : Tid.node n ≠ t := by rw [h5]; simp
        simp only [hne, if_false]
        have h8 : l.view (.node n) (.node n) = (l.word (.node n)).top := by
          rcases h.own n with h8 | ⟨_, _, h8⟩
          · exact h8
          · exact absurd h6 h8
        have h9 : ((l.word (.node n)).write (s'.get (.node n))).top = (l.word (.node n)).top + 1 := by
          unfold Word.write
          rw [if_neg (by rw [h.cur]; exact hc)]
        rw [h8, h9, Word.write_old _ _ (Nat.le_refl _), h.cur, hli]
        exact ⟨rfl, h6, h7⟩

/-! ## Simulation -/

theorem foldl_join_le {l : LState W} {x : Loc} {k : Nat} (as : List Tid) (v : View) (hv : v x ≤ k) (h : ∀ t ∈ as, l.view t x ≤ k) :
    as.foldl (fun v t => v.join (l.view t)) v x ≤ k := by
  induction as generalizing v with
  | nil => exact hv
  | cons t as ih =>
    refine ih _ ?_ fun u hu => h u (by simp [hu])
    exact Nat.max_le.2 ⟨hv, h t (by simp)⟩

theorem LExec.sim {tr : Trace W} {l : LState W} (h : LExec c tr l) : ExecM true c tr l.q ∧ LInv l (queueOf tr) := by
  induction h with
  | init => exact ⟨.init, .init⟩
  | @step tr l l' act evs h hs ih =>
    obtain ⟨hx, hl⟩ := ih
    cases act with
    | notify o as =>
      simp only [lstep] at hs
      split at hs
      · simp only [Option.map_eq_some_iff, Prod.exists, Prod.mk.injEq] at hs
        obtain ⟨s', evs', h1, rfl, rfl⟩ := hs
        have hx' := hx.step h1
        refine ⟨hx', ?_⟩
        have hpc : l.q.pc (.op o) = .off ∧ s' = { l.q.goto (.op o) .nLoad with borrows := o :: l.q.borrows } ∧
            evs' = [.callNotify o] := by
          simp only [Queue.step] at h1
          split at h1
          · split at h1 <;> cases h1
            exact ⟨by assumption, rfl, rfl⟩
          · cases h1
        obtain ⟨hpc, rfl, rfl⟩ := hpc
        have hlkne : ∀ u, l.q.lock = some u → u ≠ .op o := by
          rintro u h1 rfl
          have := (hx.inv.lockC (.op o)).1 h1
          rw [hpc] at this; cases this
        have hlv : ∀ {f : Tid → View} (hf : ∀ u, u ≠ .op o → f u = l.view u),
            (match l.q.lock with | none => l.lockView | some t => f t) = l.lv := by
          intro f hf
          unfold LState.lv
          cases hk : l.q.lock with
          | none => rfl
          | some u => exact hf u (hlkne u hk)
        have hlv' := hlv (f := fun u => if u = .op o then as.foldl (fun v t => v.join (l.view t)) (l.view u) else l.view u)
          (fun u hu => by simp [hu])
        have hq : queueOf (tr ++ [Event.callNotify o]) = queueOf tr := by simp [queueOf_append, qstep]
        rw [hq]
        constructor
        · intro x; have := hl.cur x; cases x <;> exact this
        · intro u x
          simp only
          split
          · exact foldl_join_le as _ (hl.vTop u x) fun t _ => hl.vTop t x
          · exact hl.vTop u x
        · exact hl.lTop
        · exact hl.closed
        · intro i hi; unfold LState.lv at hi; simp only [State.goto] at hi; rw [hlv'] at hi; exact hl.noWait i hi
        · unfold LState.lv
          simp only [State.goto]
          rw [hlv']
          intro hw
          rcases hl.wait hw with h2 | ⟨h2, h3⟩
          · exact .inl h2
          · refine .inr ⟨h2, h3.imp_right ?_⟩
            rintro ⟨u, h4, h5⟩
            exact ⟨u, h4, by rw [if_neg (hlkne u h4)]; exact h5⟩
        · intro u hu
          simp only [State.goto] at hu ⊢
          by_cases huo : u = .op o
          · simp [huo] at hu
          · simp only [huo, if_false] at hu ⊢
            exact hl.closer u hu
        · intro n; unfold LState.lv; simp only [State.goto]; rw [hlv']; exact hl.nodeV n
        · intro n; exact hl.own n
      · cases hs
    | act a i =>
      have hs' : (match (l.q.pc a.tid).plain a.tid with
        | some x =>
          if l.view a.tid x ≤ i ∧ i ≤ (l.word x).top then
            (Queue.step c (l.q.see ((l.word x).msg i) x) a).map fun r => (l.loaded a.tid x i r.1, r.2)
          else none
        | none => (Queue.step c l.q a).map fun r => (l.synced a.tid r.1, r.2)) = some (l', evs) := by
        cases a <;> first | exact hs | cases hs
      clear hs
      split at hs'
      · rename_i x hp
        split at hs'
        · rename_i hi
          simp only [Option.map_eq_some_iff, Prod.exists, Prod.mk.injEq] at hs'
          obtain ⟨s', evs', h1, rfl, rfl⟩ := hs'
          obtain ⟨h2, h3⟩ := hl.load_sim hx hp hi.1 hi.2 h1
          refine ⟨?_, hl.loaded hi.1 hi.2 h3⟩
          rcases h2 with h2 | ⟨rfl, p, h2, h4⟩
          · exact hx.step h2
          · rw [List.append_nil]
            have h5 := hx.stale rfl h2
            rw [← h4] at h5
            exact h5
        · cases hs'
      · simp only [Option.map_eq_some_iff, Prod.exists, Prod.mk.injEq] at hs'
        obtain ⟨s', evs', h1, rfl, rfl⟩ := hs'
        refine ⟨hx.step h1, ?_⟩
        obtain ⟨p, st, lk, li, b, rx, rfl, ht⟩ := step_tr' h1
        rw [queueOf_append]
        exact hl.synced hx.inv ht

theorem LExec.exec {tr : Trace W} {l : LState W} (h : LExec c tr l) : ExecM true c tr l.q := h.sim.1

end Thingbuf.Queue
