import Verif.ChanSeqLift
/-!
# Sequential use of the channel: the wait queue between calls
-/

namespace Thingbuf.Chan

open Queue (QSt WList Rep Tid)

variable {V W R : Type}

/-- The wait queue at rest, when the nodes in `wt` wait (longest waiting first, with their wakers), the send futures in
`fs` are pending, nodes from `next` on and operations from `n` on are unused. `cl`: the channel is closed. -/
structure QAt (s : Queue.State W) (wt : List (Nat × W)) (fs : Nat → Prop) (next n : Nat) (cl : Bool) : Prop where
  lock : s.lock = none
  borrows : s.borrows = []
  rep : Rep s.list (wt.map Prod.fst).reverse
  inq : ∀ x ∈ wt, (s.list.node x.1).state = .waiting ∧ (s.list.node x.1).waiter = some x.2
  sub : ∀ x ∈ wt, fs x.1
  off : ∀ k, fs k → k ∉ wt.map Prod.fst → (s.list.node k).waiter = none ∧
    ((s.list.node k).state = .waking ∨ (s.list.node k).state = .closed ∧ cl = true)
  pcs : ∀ k, fs k → s.pc (.node k) = .idle .waiting ∧ k < next
  fresh : ∀ k, next ≤ k → s.pc (.node k) = .idle .fresh ∧ (s.list.node k).waiter = none ∧ (s.list.node k).state = .empty
  ops : ∀ o, n ≤ o → s.pc (.op o) = .off

/-- The node of `k` can be used for `start_wait`. -/
structure Ready (s : Queue.State W) (k : Nat) : Prop where
  pc : ∃ l, s.pc (.node k) = .idle l ∧ l.mayStart = true
  waiter : (s.list.node k).waiter = none
  state : (s.list.node k).state = .empty ∨ (s.list.node k).state = .waking

/-- The state word, as long as the receiver is alive. -/
def qst : List (Nat × W) → Bool → QSt
  | [], true => .waking
  | [], false => .empty
  | _ :: _, _ => .waiting

theorem QAt.init : QAt (Queue.State.init : Queue.State W) [] (fun _ => False) 1 0 false where
  lock := rfl
  borrows := rfl
  rep := Rep.init
  inq := by simp
  sub := by simp
  off := by simp
  pcs := by simp
  fresh := fun _ _ => ⟨rfl, rfl, rfl⟩
  ops := fun _ _ => rfl

variable {c : Queue.Config W} {s : Queue.State W} {k i : Nat} {spur : Nat → Bool} {wt : List (Nat × W)} {fs : Nat → Prop}
  {next n : Nat} {cl : Bool}

theorem QAt.mono {next' n' : Nat} {cl' : Bool} (h : QAt s wt fs next n cl) (h1 : next ≤ next') (h2 : n ≤ n')
    (h3 : cl = true → cl' = true) : QAt s wt fs next' n' cl' :=
  { h with
    off := fun k hk hw => ⟨(h.off k hk hw).1, (h.off k hk hw).2.imp id fun x => ⟨x.1, h3 x.2⟩⟩
    pcs := fun k hk => ⟨(h.pcs k hk).1, Nat.lt_of_lt_of_le (h.pcs k hk).2 h1⟩
    fresh := fun k hk => h.fresh k (Nat.le_trans h1 hk)
    ops := fun o ho => h.ops o (Nat.le_trans h2 ho) }

theorem QAt.congr {fs' : Nat → Prop} (h : QAt s wt fs next n cl) (hf : ∀ k, fs k ↔ fs' k) : QAt s wt fs' next n cl := by
  have : fs = fs' := funext fun k => propext (hf k)
  exact this ▸ h

theorem nodup_rev {l : List Nat} (h : l.reverse.Nodup) : l.Nodup := by
  unfold List.Nodup at *
  rw [List.pairwise_reverse] at h
  exact h.imp fun hab => hab.symm

theorem QAt.nodup (h : QAt s wt fs next n cl) : (wt.map Prod.fst).Nodup := by
  exact nodup_rev h.rep.nodup

/-- A step of a node that no pending future has. -/
theorem QAt.node {p : Queue.PC W} {st : QSt} {rx : Bool} (h : QAt s wt fs next n cl) (hk : k < next) (hf : ¬ fs k) :
    QAt (s.after (.node k) p st none s.list s.borrows rx) wt fs next n cl where
  lock := rfl
  borrows := h.borrows
  rep := h.rep
  inq := h.inq
  sub := h.sub
  off := h.off
  pcs := fun m hm => by
    have : m ≠ k := by rintro rfl; exact hf hm
    simpa [Queue.State.after, this] using h.pcs m hm
  fresh := fun m hm => by
    have : m ≠ k := by omega
    simpa [Queue.State.after, this] using h.fresh m hm
  ops := fun o ho => by simpa [Queue.State.after] using h.ops o ho

/-- Future `k` is looked at separately. -/
theorem QAt.without (h : QAt s wt fs next n cl) (hk : k ∉ wt.map Prod.fst) : QAt s wt (fun m => fs m ∧ m ≠ k) next n cl :=
  { h with
    sub := fun x hx => ⟨h.sub x hx, by rintro rfl; exact hk (List.mem_map_of_mem hx)⟩
    off := fun m hm => h.off m hm.1
    pcs := fun m hm => h.pcs m hm.1 }

theorem QAt.goto_eq (h : QAt s wt fs next n cl) {st : QSt} (hst : s.st = st) (t : Tid) (p : Queue.PC W) :
    s.goto t p = s.after t p st none s.list [] s.rxGone := by
  rw [goto_after, h.lock, h.borrows, hst]

theorem QAt.fresh_ready (h : QAt s wt fs next n cl) (hk : next ≤ k) : Ready s k :=
  ⟨⟨_, (h.fresh k hk).1, rfl⟩, (h.fresh k hk).2.1, .inl (h.fresh k hk).2.2⟩

/-- `start_wait` when a notification is stored. -/
theorem QAt.start_stored (h : QAt s wt fs next n cl) (hk : k < next) (hf : ¬ fs k) (hr : Ready s k) (hst : s.st = .waking)
    (v : W) (i : Nat) : ∃ s', QRun c (fun i => .node k (spur i)) nodeRet (s.goto (.node k) (.startCas v)) i s' []
      (.ret .notified) (i + 1) ∧ QAt s' wt fs next n cl ∧ Ready s' k ∧ s'.st = .empty ∧ s'.rxGone = s.rxGone := by
  have hj := QRun.start_stored (c := c) (s := s) (k := k) (i := i) (l := s.list) (b := []) (rx := s.rxGone) (spur := spur) v
  rw [← h.goto_eq hst] at hj
  refine ⟨_, hj, ?_, ?_, rfl, rfl⟩
  · rw [← h.borrows]; exact h.node hk hf
  · exact ⟨⟨.startNotified, by simp [Queue.State.after], rfl⟩, hr.waiter, hr.state⟩

@[simp] theorem enqueue_state (l : WList W) (n m : Nat) : ((l.enqueue n).list.node m).state = (l.node m).state := by
  simp only [WList.enqueue]
  split <;> simp only [WList.set] <;> repeat' (first | rfl | split)

@[simp] theorem enqueue_waiter (l : WList W) (n m : Nat) : ((l.enqueue n).list.node m).waiter = (l.node m).waiter := by
  simp only [WList.enqueue]
  split <;> simp only [WList.set] <;> repeat' (first | rfl | split)

/-- `start_wait` when no notification is stored. -/
theorem QAt.start_wait (hc : ∃ n, ∀ i, n ≤ i → spur i = false) (h : QAt s wt fs next n cl) (hk : k < next) (hf : ¬ fs k)
    (hr : Ready s k) (hst : s.st = .empty ∨ s.st = .waiting) (v : W) (i : Nat) :
    ∃ s' j, QRun c (fun i => .node k (spur i)) nodeRet (s.goto (.node k) (.startCas v)) i s' [] (.ret .wait) j ∧ i ≤ j ∧
      QAt s' (wt ++ [(k, v)]) (fun m => fs m ∨ m = k) next n cl ∧ s'.st = .waiting ∧ s'.rxGone = s.rxGone := by
  obtain ⟨j, hj, hij⟩ := QRun.start_wait (c := c) (s := s) (k := k) (i := i) (l := s.list) (b := []) (rx := s.rxGone) hc v
    hst hr.waiter hr.state
  have hkw : k ∉ wt.map Prod.fst := by
    intro hm
    obtain ⟨x, hx, rfl⟩ := List.mem_map.1 hm
    exact hf (h.sub x hx)
  rw [← h.goto_eq rfl] at hj
  refine ⟨_, j, hj, hij, ?_, rfl, rfl⟩
  constructor
  · rfl
  · rfl
  · simp only [after_list, List.map_append, List.map_cons, List.map_nil, List.reverse_append, List.reverse_cons,
      List.reverse_nil, List.nil_append, List.cons_append]
    have : Rep (fill s.list k v) (wt.map Prod.fst).reverse := by
      unfold fill
      apply h.rep.set <;> intro _ <;> rfl
    exact Rep.enqueue this (by simpa using hkw)
  · intro x hx
    simp only [after_list, enqueue_state, enqueue_waiter, fill, WList.set]
    rcases List.mem_append.1 hx with hx | hx
    · have : x.1 ≠ k := by intro he; exact hkw (he ▸ List.mem_map_of_mem hx)
      simpa [this] using h.inq x hx
    · simp only [List.mem_singleton] at hx
      subst hx
      simp
  · intro x hx
    rcases List.mem_append.1 hx with hx | hx
    · exact .inl (h.sub x hx)
    · simp only [List.mem_singleton] at hx
      subst hx
      exact .inr rfl
  · intro m hm hmw
    simp only [List.map_append, List.map_cons, List.map_nil, List.mem_append, List.mem_singleton, not_or] at hmw
    simp only [after_list, enqueue_state, enqueue_waiter, fill, WList.set, hmw.2, if_false]
    exact h.off m (hm.resolve_right hmw.2) hmw.1
  · intro m hm
    by_cases hmk : m = k
    · subst hmk; exact ⟨by simp, hk⟩
    · simpa [Queue.State.after, hmk] using h.pcs m (hm.resolve_right hmk)
  · intro m hm
    have : m ≠ k := by omega
    have h1 := h.fresh m hm
    simp only [after_list, enqueue_state, enqueue_waiter, fill, WList.set, this, if_false]
    simpa [Queue.State.after, this] using h1
  · intro o ho
    simpa [Queue.State.after] using h.ops o ho

/-- `continue_wait` of a future that was notified. -/
theorem QAt.cont_off (h : QAt s wt fs next n cl) (hf : fs k) (hk : k ∉ wt.map Prod.fst) (v : W) (i : Nat) :
    ∃ s' r, QRun c (fun i => .node k (spur i)) nodeRet (s.goto (.node k) (.contLoad v)) i s' [] (.ret r) (i + 1) ∧
      QAt s' wt (fun m => fs m ∧ m ≠ k) next n cl ∧ s'.st = s.st ∧ s'.rxGone = s.rxGone ∧
      (r = .notified ∧ Ready s' k ∨ r = .closed ∧ cl = true) := by
  obtain ⟨h1, h2⟩ := h.off k hf hk
  have hlt := (h.pcs k hf).2
  have hq : ∀ p, QAt (s.after (.node k) p s.st none s.list [] s.rxGone) wt (fun m => fs m ∧ m ≠ k) next n cl := by
    intro p
    have := (h.without hk).node (p := p) (st := s.st) (rx := s.rxGone) hlt (fun hh => hh.2 rfl)
    rwa [h.borrows] at this
  rcases h2 with h2 | ⟨h2, h3⟩
  · have hj := QRun.cont_notified (c := c) (s := s) (i := i) (b := []) (rx := s.rxGone) (spur := spur) (st := s.st) v h2
    rw [← h.goto_eq rfl] at hj
    refine ⟨_, _, hj, hq _, rfl, rfl, .inl ⟨rfl, ?_⟩⟩
    exact ⟨⟨.contNotified, by simp, rfl⟩, h1, .inr h2⟩
  · have hj := QRun.cont_closed (c := c) (s := s) (i := i) (b := []) (rx := s.rxGone) (spur := spur) (st := s.st) v h2
    rw [← h.goto_eq rfl] at hj
    exact ⟨_, _, hj, hq _, rfl, rfl, .inr ⟨rfl, h3⟩⟩

theorem rewake_fst (same : W → W → Bool) (k : Nat) (u : W) (l : List (Nat × W)) :
    (rewake same k u l).map Prod.fst = l.map Prod.fst := by
  rw [rewake, List.map_map]
  apply List.map_congr_left
  intro x _
  simp only [Function.comp]
  split
  · simp_all
  · rfl

/-- `continue_wait` of a future that waits. -/
theorem QAt.cont_wait (h : QAt s wt fs next n cl) (hf : fs k) (hk : k ∈ wt.map Prod.fst) (v : W) (i : Nat) :
    ∃ s' j, QRun c (fun i => .node k (spur i)) nodeRet (s.goto (.node k) (.contLoad v)) i s' [] (.ret .wait) j ∧ i ≤ j ∧
      QAt s' (rewake c.same k v wt) fs next n cl ∧ s'.st = s.st ∧ s'.rxGone = s.rxGone := by
  obtain ⟨⟨k', u⟩, hx, rfl⟩ := List.mem_map.1 hk
  obtain ⟨h1, h2⟩ := h.inq _ hx
  obtain ⟨j, hj, hij⟩ := QRun.cont_wait (c := c) (s := s) (i := i) (b := []) (rx := s.rxGone) (spur := spur) (st := s.st) v u h1 h2
  rw [← h.goto_eq rfl] at hj
  refine ⟨_, j, hj, hij, ?_, rfl, rfl⟩
  have hlt := (h.pcs _ hf).2
  have hu : ∀ x ∈ wt, x.1 = k' → x.2 = u := by
    intro x hx' he
    have := (h.inq x hx').2
    rw [he, h2] at this
    exact (Option.some.inj this).symm
  constructor
  · rfl
  · rfl
  · rw [rewake_fst]
    rw [after_list]
    apply h.rep.set <;> intro _ <;> rfl
  · intro y hy
    obtain ⟨x, hx', rfl⟩ := List.mem_map.1 hy
    have h3 := h.inq x hx'
    simp only [after_list, WList.set]
    by_cases hxk : x.1 = k'
    · have := hu x hx' hxk
      simp only [hxk, if_true, this]
      exact ⟨h1, trivial⟩
    · simpa [hxk] using h3
  · intro y hy
    have : y.1 ∈ (rewake c.same k' v wt).map Prod.fst := List.mem_map_of_mem hy
    rw [rewake_fst] at this
    obtain ⟨x, hx', he⟩ := List.mem_map.1 this
    rw [← he]
    exact h.sub x hx'
  · intro m hm hmw
    rw [rewake_fst] at hmw
    have : m ≠ k' := by rintro rfl; exact hmw hk
    simp only [after_list, WList.set, this, if_false]
    exact h.off m hm hmw
  · intro m hm
    by_cases hmk : m = k'
    · subst hmk; exact ⟨by simp, hlt⟩
    · simpa [Queue.State.after, hmk] using h.pcs m hm
  · intro m hm
    have : m ≠ k' := by simp only at hlt; omega
    have h1 := h.fresh m hm
    simp only [after_list, WList.set, this, if_false]
    simpa [Queue.State.after, this] using h1
  · intro o ho
    simpa [Queue.State.after] using h.ops o ho

/-- The drop of a future whose node is not in the list. -/
theorem QAt.drop_off (h : QAt s wt fs next n cl) (hf : fs k) (hk : k ∉ wt.map Prod.fst) (i : Nat) :
    ∃ s', QRun c (fun i => .node k (spur i)) nodeRet (s.goto (.node k) .remCheck) i s' [] .freed (i + 1) ∧
      QAt s' wt (fun m => fs m ∧ m ≠ k) next n cl ∧ s'.st = s.st ∧ s'.rxGone = s.rxGone := by
  obtain ⟨h1, h2⟩ := h.off k hf hk
  have hj := QRun.drop_off (c := c) (s := s) (k := k) (l := s.list) (i := i) (b := []) (rx := s.rxGone) (spur := spur) (st := s.st)
    (by rcases h2 with h2 | h2 <;> simp [h2])
  rw [← h.goto_eq rfl] at hj
  refine ⟨_, hj, ?_, rfl, rfl⟩
  have := (h.without hk).node (p := .gone) (st := s.st) (rx := s.rxGone) (h.pcs k hf).2 (fun hh => hh.2 rfl)
  rwa [h.borrows] at this

theorem remove_keeps {l : WList W} {p q : List Nat} {n : Nat} (h : Rep l (p ++ n :: q)) (m : Nat) :
    ((l.remove n).list.node m).state = (l.node m).state ∧ ((l.remove n).list.node m).waiter = (l.node m).waiter := by
  rw [h.remove_node]
  repeat' (first | exact ⟨rfl, rfl⟩ | split)

theorem filter_keys (wt : List (Nat × W)) (k : Nat) :
    (wt.filter fun x => x.1 ≠ k).map Prod.fst = (wt.map Prod.fst).filter (· ≠ k) := by
  rw [List.filter_map]
  rfl

/-- The drop of a future whose node is in the list. -/
theorem QAt.drop_in (h : QAt s wt fs next n cl) (hf : fs k) (hk : k ∈ wt.map Prod.fst) (hst : s.st = .waiting) (i : Nat) :
    ∃ s' j, QRun c (fun i => .node k (spur i)) nodeRet (s.goto (.node k) .remCheck) i s' [] .freed j ∧ i ≤ j ∧
      QAt s' (wt.filter fun x => x.1 ≠ k) (fun m => fs m ∧ m ≠ k) next n cl ∧
      s'.st = qst (wt.filter fun x => x.1 ≠ k) false ∧ s'.rxGone = s.rxGone := by
  obtain ⟨x, y, hxy⟩ := List.append_of_mem (List.mem_reverse.2 hk)
  have hr := h.rep
  rw [hxy] at hr
  have hnd := hr.nodup
  rw [List.nodup_append, List.nodup_cons] at hnd
  have hfil : ((wt.filter fun x => x.1 ≠ k).map Prod.fst).reverse = x ++ y := by
    rw [filter_keys, ← List.filter_reverse, hxy, List.filter_append, List.filter_cons]
    rw [if_neg (by simp)]
    rw [List.filter_eq_self.2, List.filter_eq_self.2]
    · intro a ha
      have : a ≠ k := by rintro rfl; exact hnd.2.1.1 ha
      simpa using this
    · intro a ha
      have : a ≠ k := hnd.2.2 a ha k (by simp)
      simpa using this
  have hst' : (s.list.node k).state = .waiting := by
    obtain ⟨z, hz, rfl⟩ := List.mem_map.1 hk
    exact (h.inq z hz).1
  obtain ⟨j, hj, hij⟩ := QRun.drop_in (c := c) (s := s) (i := i) (b := []) (rx := s.rxGone) (spur := spur) hr hst'
  rw [← h.goto_eq hst] at hj
  refine ⟨_, j, hj, hij, ?_, ?_, rfl⟩
  · have hlt := (h.pcs _ hf).2
    constructor
    · rfl
    · rfl
    · rw [hfil]; exact hr.remove
    · intro z hz
      simp only [after_list, remove_keeps hr]
      exact h.inq z (List.mem_filter.1 hz).1
    · intro z hz
      have := List.mem_filter.1 hz
      exact ⟨h.sub z this.1, by simpa using this.2⟩
    · intro m hm hmw
      simp only [after_list, remove_keeps hr]
      refine h.off m hm.1 fun hh => hmw ?_
      rw [filter_keys]
      exact List.mem_filter.2 ⟨hh, by simpa using hm.2⟩
    · intro m hm
      have := hm.2
      simpa [Queue.State.after, this] using h.pcs m hm.1
    · intro m hm
      have : m ≠ k := by omega
      have h1 := h.fresh m hm
      simp only [after_list, remove_keeps hr]
      simpa [Queue.State.after, this] using h1
    · intro o ho
      simpa [Queue.State.after] using h.ops o ho
  · have : (wt.filter fun x => x.1 ≠ k) = [] ↔ x ++ y = [] := by
      rw [← hfil]; simp
    simp only [after_st]
    cases hw : wt.filter fun x => x.1 ≠ k with
    | nil => rw [if_pos (this.1 hw)]; rfl
    | cons z zs => rw [if_neg (fun hh => by rw [this.2 hh] at hw; cases hw)]; rfl

theorem QAt.notify_eq (h : QAt s wt fs next n cl) (o : Nat) {st : QSt} (hst : s.st = st) :
    { s.goto (.op o) .nLoad with borrows := o :: s.borrows } = s.after (.op o) .nLoad st none s.list [o] s.rxGone := by
  rw [goto_after, h.lock, h.borrows, hst]
  rfl

/-- Only an operation moved. -/
theorem QAt.op {o m : Nat} {p : Queue.PC W} {st : QSt} {rx : Bool} (h : QAt s wt fs next n cl) (ho : o < m) (hm : n ≤ m) :
    QAt (s.after (.op o) p st none s.list [] rx) wt fs next m cl where
  lock := rfl
  borrows := rfl
  rep := h.rep
  inq := h.inq
  sub := h.sub
  off := h.off
  pcs := fun m hm => by simpa [Queue.State.after] using h.pcs m hm
  fresh := fun m hm => by simpa [Queue.State.after] using h.fresh m hm
  ops := fun a ha => by
    have : a ≠ o := by omega
    simpa [Queue.State.after, this] using h.ops a (by omega)

/-- `notify` when nobody waits. -/
theorem QAt.notify_store (hc : ∃ n, ∀ i, n ≤ i → spur i = false) (h : QAt s [] fs next n cl) {st : Bool} (hst : s.st = qst ([] : List (Nat × W)) st)
    {o i : Nat} (ho : o < i) (hi : n ≤ i) :
    ∃ s' j, QRun c (fun i => .op o (spur i)) opRet { s.goto (.op o) .nLoad with borrows := o :: s.borrows } i s' [] () j ∧ i ≤ j ∧
      QAt s' [] fs next j cl ∧ s'.st = .waking ∧ s'.rxGone = s.rxGone := by
  obtain ⟨j, hj, hij⟩ := QRun.notify_store (c := c) (s := s) (l := s.list) (i := i) (b := [o]) (o := o) (rx := s.rxGone) hc (by simp)
    (st := s.st) (by rw [hst]; cases st <;> simp [qst])
  rw [← h.notify_eq o rfl] at hj
  exact ⟨_, j, hj, hij, h.op (by omega) (by omega), rfl, rfl⟩

/-- `notify` when somebody waits. -/
theorem QAt.notify_wake {v : W} (h : QAt s ((k, v) :: wt) fs next n cl) (hst : s.st = .waiting) {o i : Nat} (ho : o < i) (hi : n ≤ i) :
    ∃ s' j, QRun c (fun i => .op o (spur i)) opRet { s.goto (.op o) .nLoad with borrows := o :: s.borrows } i s' [v] () j ∧ i ≤ j ∧
      QAt s' wt fs next j cl ∧ s'.st = qst wt false ∧ s'.rxGone = s.rxGone := by
  have hr : Rep s.list ((wt.map Prod.fst).reverse ++ [k]) := by simpa using h.rep
  obtain ⟨h1, h2⟩ := h.inq (k, v) (by simp)
  obtain ⟨j, hj, hij⟩ := QRun.notify_wake (c := c) (s := s) (i := i) (b := [o]) (o := o) (rx := s.rxGone) (spur := spur) (by simp) hr h1 h2
  rw [← h.notify_eq o hst] at hj
  refine ⟨_, j, hj, hij, ?_, ?_, rfl⟩
  · have hk : k ∉ wt.map Prod.fst := by
      have := h.nodup
      rw [List.map_cons, List.nodup_cons] at this
      exact this.1
    have hn : ∀ m, m ≠ k → (((s.list.dequeue .waking).list).node m).state = (s.list.node m).state ∧
        (((s.list.dequeue .waking).list).node m).waiter = (s.list.node m).waiter := by
      intro m hm
      rw [hr.dequeue_node, if_neg hm]
      split <;> exact ⟨rfl, rfl⟩
    constructor
    · rfl
    · rfl
    · exact hr.dequeue _
    · intro x hx
      have : x.1 ≠ k := by rintro rfl; exact hk (List.mem_map_of_mem hx)
      simp only [after_list, hn _ this]
      exact h.inq x (List.mem_cons_of_mem _ hx)
    · exact fun x hx => h.sub x (List.mem_cons_of_mem _ hx)
    · intro m hm hmw
      simp only [after_list]
      by_cases hmk : m = k
      · rw [hr.dequeue_node, if_pos hmk]
        exact ⟨rfl, .inl rfl⟩
      · rw [(hn m hmk).1, (hn m hmk).2]
        exact h.off m hm (by simp only [List.map_cons, List.mem_cons, not_or]; exact ⟨hmk, hmw⟩)
    · intro m hm
      simpa [Queue.State.after] using h.pcs m hm
    · intro m hm
      have : m ≠ k := by
        have := (h.pcs k (h.sub (k, v) (by simp))).2
        omega
      have h3 := h.fresh m hm
      simp only [after_list, hn m this]
      simpa [Queue.State.after] using h3
    · intro a ha
      have : a ≠ o := by omega
      simpa [Queue.State.after, this] using h.ops a (by omega)
  · simp only [after_st]
    cases wt <;> simp [qst]

theorem drain_spec : ∀ {wt : List (Nat × W)} {l : WList W}, Rep l (wt.map Prod.fst).reverse →
    Rep (drain l wt.length) [] ∧ (∀ m, m ∈ wt.map Prod.fst → ((drain l wt.length).node m).state = .closed ∧
      ((drain l wt.length).node m).waiter = none) ∧
    (∀ m, m ∉ wt.map Prod.fst → ((drain l wt.length).node m).state = (l.node m).state ∧
      ((drain l wt.length).node m).waiter = (l.node m).waiter)
  | [], l, h => by
    refine ⟨h, by simp, ?_⟩
    intro m _
    exact ⟨rfl, rfl⟩
  | (k, v) :: wt, l, h => by
    have hr : Rep l ((wt.map Prod.fst).reverse ++ [k]) := by simpa using h
    have hk : k ∉ wt.map Prod.fst := by
      have := nodup_rev h.nodup
      rw [List.map_cons, List.nodup_cons] at this
      exact this.1
    obtain ⟨h1, h2, h3⟩ := drain_spec (hr.dequeue .closed)
    refine ⟨h1, ?_, ?_⟩
    · intro m hm
      by_cases hmk : m = k
      · subst hmk
        have := h3 m hk
        rw [hr.dequeue_node, if_pos rfl] at this
        exact this
      · exact h2 m (by simpa [hmk] using hm)
    · intro m hm
      simp only [List.map_cons, List.mem_cons, not_or] at hm
      have := h3 m hm.2
      rw [hr.dequeue_node, if_neg hm.1] at this
      refine ⟨this.1.trans ?_, this.2.trans ?_⟩ <;> split <;> rfl

/-- `close`. -/
theorem QAt.close (h : QAt s wt fs next n cl) {o i : Nat} (ho : o < i) (hi : n ≤ i) :
    ∃ s' j, QRun c (fun i => .op o (spur i)) opRet { s.goto (.op o) .cSwap with rxGone := true } i s' (wt.map Prod.snd) () j ∧ i ≤ j ∧
      QAt s' [] fs next j true := by
  obtain ⟨j, hj, hij⟩ := QRun.close (c := c) (spur := spur) (s := s) (b := []) (rx := true) (o := o) (i := i) (st := s.st) h.rep h.inq
  obtain ⟨h1, h2, h3⟩ := drain_spec h.rep
  have : ({ s.goto (.op o) .cSwap with rxGone := true } : Queue.State W) = s.after (.op o) .cSwap s.st none s.list [] true := by
    rw [goto_after, h.lock, h.borrows]
    rfl
  rw [← this] at hj
  refine ⟨_, j, hj, hij, ?_⟩
  · constructor
    · rfl
    · rfl
    · exact h1
    · simp
    · simp
    · intro m hm _
      simp only [after_list]
      by_cases hmw : m ∈ wt.map Prod.fst
      · exact ⟨(h2 m hmw).2, .inr ⟨(h2 m hmw).1, trivial⟩⟩
      · rw [(h3 m hmw).1, (h3 m hmw).2]
        exact ⟨(h.off m hm hmw).1, (h.off m hm hmw).2.imp id fun x => ⟨x.1, trivial⟩⟩
    · intro m hm
      simpa [Queue.State.after] using h.pcs m hm
    · intro m hm
      have hmw : m ∉ wt.map Prod.fst := by
        intro hh
        obtain ⟨x, hx, rfl⟩ := List.mem_map.1 hh
        have := (h.pcs x.1 (h.sub x hx)).2
        omega
      have h4 := h.fresh m hm
      simp only [after_list, h3 m hmw]
      simpa [Queue.State.after] using h4
    · intro a ha
      have : a ≠ o := by omega
      simpa [Queue.State.after, this] using h.ops a (by omega)

end Thingbuf.Chan
