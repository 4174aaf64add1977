import Verif.RelAcqCellMove
/-
What steps of the wait cell do to the views, and the first invariants: accesses to the stored waker are ordered by
happens-before, and the newest values make an execution of `Verif/CellInv.lean`.
-/
namespace Thingbuf.RA

variable {w cap : Nat} {V : Type} {o : Orders} {co : CellOrders} {c : Cell.Config} {tr : List (REv V)}

/-- The orderings that are needed: those of the source (`CellOrders.source`) have them. -/
structure CellSync (co : CellOrders) : Prop where
  startAcq : co.startOk.acq = true
  failAcq : co.startFail.acq = true
  signalAcq : co.signal.acq = true
  signalRel : co.signal.rel = true
  unlockRel : co.unlockOk.rel = true
  resetAcq : co.reset.acq = true
  resetRel : co.reset.rel = true
  clearRel : co.clear.rel = true

theorem cellOf_append (t u : List (REv V)) : cellOf (t ++ u) = cellOf t ++ cellOf u := by
  simp [cellOf]

theorem cellOf_map {t : List (REv V)} {evs : List (Cell.Event Nat)} (h : t.map Prod.fst = evs.map .cell) :
    cellOf t = evs := by
  have : cellOf t = (t.map Prod.fst).filterMap XEv.cell? := by unfold cellOf; rw [List.filterMap_map]; rfl
  rw [this, h]
  clear h this
  induction evs with
  | nil => rfl
  | cons e evs ih => simp only [List.map_cons, List.filterMap_cons, XEv.cell?, ih]

theorem AtX.cellOf {q : Nat} {e : Cell.Event Nat} (h : AtX tr q (.cell e)) : e ∈ RA.cellOf tr := by
  simp only [AtX, List.getElem?_map] at h
  obtain ⟨x, hx, he⟩ := Option.map_eq_some_iff.1 h
  exact List.mem_filterMap.2 ⟨x, List.mem_of_getElem? hx, by rw [he]; rfl⟩

theorem mem_cellOf {e : Cell.Event Nat} (h : e ∈ cellOf tr) : ∃ q, AtX tr q (.cell e) := by
  obtain ⟨x, hx, he⟩ := List.mem_filterMap.1 h
  obtain ⟨q, hq⟩ := List.mem_iff_getElem?.1 hx
  refine ⟨q, ?_⟩
  unfold AtX
  rw [List.getElem?_map, hq]
  obtain ⟨y, hb⟩ := x
  cases y with
  | core y => cases he
  | cell y => cases he; rfl

/-- An event of a longer trace is old or one of the new ones. -/
theorem AtX.cases {t : List (REv V)} {q : Nat} {e : Cell.Event Nat} (h : AtX (tr ++ t) q (.cell e)) :
    AtX tr q (.cell e) ∨ tr.length ≤ q ∧ e ∈ RA.cellOf t := by
  rcases Nat.lt_or_ge q tr.length with hq | hq
  · exact .inl (h.of_append hq)
  · refine .inr ⟨hq, AtX.cellOf (q := q - tr.length) ?_⟩
    unfold AtX at h ⊢
    rwa [List.map_append, List.getElem?_append_right (by simpa using hq), List.length_map] at h

/-- What all steps of the cell have in common. -/
structure Out (tr : List (REv V)) (s : XState w V) (a : OpId) (k : Cell.State Nat × List (Cell.Event Nat)) (l : Cell.Bits)
    (x : Option Nat) (r : XState w V × List (REv V)) : Prop where
  cell : r.1.cell = s.cell.after a (k.1.pc a) l x
  evs : cellOf r.2 = k.2
  map : r.2.map Prod.fst = k.2.map .cell
  other : ∀ b, b ≠ a → r.1.core.view b = s.core.view b
  le : (s.core.view a).le (r.1.core.view a)
  mem : r.1.core.mem = s.core.mem
  new : ∀ q, tr.length ≤ q → q < (tr ++ r.2).length → q ∈ (r.1.core.view a).hb
  hb : ∀ (q : Nat) e, (tr ++ r.2)[q]? = some e → tr.length ≤ q → ∀ n ∈ (s.core.view a).hb, n ∈ e.2
  org : ∀ p ∈ (r.1.core.view a).hb, p ∈ (s.core.view a).hb ∨ tr.length ≤ p ∨
    ∃ m ∈ s.lock, p ∈ m.view.hb ∧ ∀ l, m.view.ts l ≤ (r.1.core.view a).ts l

theorem lt_of_stamp {tr t : List (REv V)} {q : Nat} {e : REv V} (h : (tr ++ t)[q]? = some e) (hq : tr.length ≤ q) :
    t[q - tr.length]? = some e := by
  rwa [List.getElem?_append_right hq] at h

/-- What the intermediate states of a step have in common. -/
structure Mid (tr : List (REv V)) (s : XState w V) (a : OpId) (s1 : XState w V) (t : List (REv V)) : Prop where
  now : s1.core.now = (tr ++ t).length
  other : ∀ b, b ≠ a → s1.core.view b = s.core.view b
  le : (s.core.view a).le (s1.core.view a)
  mem : s1.core.mem = s.core.mem
  new : ∀ q, tr.length ≤ q → q < (tr ++ t).length → q ∈ (s1.core.view a).hb
  hb : ∀ (q : Nat) e, (tr ++ t)[q]? = some e → tr.length ≤ q → ∀ n ∈ (s.core.view a).hb, n ∈ e.2
  org : ∀ p ∈ (s1.core.view a).hb, p ∈ (s.core.view a).hb ∨ tr.length ≤ p ∨
    ∃ m ∈ s.lock, p ∈ m.view.hb ∧ ∀ l, m.view.ts l ≤ (s1.core.view a).ts l

theorem Mid.refl {s : XState w V} (a : OpId) (hnow : s.core.now = tr.length) : Mid tr s a s [] := by
  refine ⟨by simpa using hnow, fun _ _ => rfl, View.le_refl _, rfl, ?_, ?_, fun p hp => .inl hp⟩
  · intro q h1 h2; rw [List.append_nil] at h2; omega
  · intro q e he hq; rw [List.append_nil] at he
    have := (List.getElem?_eq_some_iff.1 he).1
    omega

theorem Mid.congr {s s1 s2 : XState w V} {a : OpId} {t : List (REv V)} (h : Mid tr s a s1 t) (hv : s2.core.view = s1.core.view)
    (hm : s2.core.mem = s1.core.mem) (hn : s2.core.now = s1.core.now) : Mid tr s a s2 t := by
  refine ⟨hn.trans h.now, ?_, ?_, hm.trans h.mem, ?_, h.hb, ?_⟩
  · rw [hv]; exact h.other
  · rw [hv]; exact h.le
  · rw [hv]; exact h.new
  · rw [hv]; exact h.org

theorem Mid.emit {s s1 : XState w V} {a : OpId} {t : List (REv V)} (h : Mid tr s a s1 t) (evs : List (Cell.Event Nat)) :
    Mid tr s a (s1.emit a evs).1 (t ++ (s1.emit a evs).2) := by
  have hlen : (s1.emit a evs).2.length = evs.length := by
    unfold XState.emit; rw [stamp_len, List.length_map]
  have hle : (s1.core.view a).le ((s1.emit a evs).1.core.view a) :=
    (Wider.emit s1 a evs).view a
  have hts : ∀ l, ((s1.emit a evs).1.core.view a).ts l = (s1.core.view a).ts l := by
    intro l; simp [XState.emit, upd]
  have hv : ∀ p, p ∈ ((s1.emit a evs).1.core.view a).hb ↔ p ∈ (s1.core.view a).hb ∨ (tr ++ t).length ≤ p ∧ p < (tr ++ t).length + evs.length := by
    intro p
    simp only [XState.emit, upd_self, List.mem_append, List.mem_range'_1, h.now]
    exact or_comm
  refine ⟨?_, ?_, h.le.trans hle, h.mem, ?_, ?_, ?_⟩
  · show s1.core.now + evs.length = _
    rw [h.now, ← List.append_assoc, List.length_append (as := tr ++ t), hlen]
  · intro b hb
    show upd _ _ _ b = _
    rw [upd_ne _ _ hb]
    exact h.other b hb
  · intro q h1 h2
    rw [← List.append_assoc, List.length_append (as := tr ++ t), hlen] at h2
    rw [hv]
    rcases Nat.lt_or_ge q (tr ++ t).length with hq | hq
    · exact .inl (h.new q h1 hq)
    · exact .inr ⟨hq, h2⟩
  · intro q e he hq n hn
    rw [← List.append_assoc] at he
    rcases Nat.lt_or_ge q (tr ++ t).length with h1 | h1
    · rw [List.getElem?_append_left h1] at he
      exact h.hb q e he hq n hn
    · rw [List.getElem?_append_right h1] at he
      exact (stamp_at he n).2 (.inl (h.le.2 n hn))
  · intro p hp
    rcases (hv p).1 hp with hp | hp
    · rcases h.org p hp with h1 | h1 | ⟨m, h1, h2, h3⟩
      · exact .inl h1
      · exact .inr (.inl h1)
      · exact .inr (.inr ⟨m, h1, h2, fun l => by rw [hts]; exact h3 l⟩)
    · exact .inr (.inl (by have := hp.1; rw [List.length_append] at this; omega))

theorem Mid.setView {s s1 : XState w V} {a : OpId} {t : List (REv V)} (h : Mid tr s a s1 t) {v : View}
    (hle : (s1.core.view a).le v)
    (ho : ∀ p ∈ v.hb, p ∈ (s1.core.view a).hb ∨ ∃ m ∈ s.lock, p ∈ m.view.hb ∧ ∀ l, m.view.ts l ≤ v.ts l) :
    Mid tr s a (s1.setView a v) t := by
  have hv : (s1.setView a v).core.view a = v := upd_self ..
  refine ⟨h.now, ?_, ?_, h.mem, ?_, h.hb, ?_⟩
  · intro b hb
    show upd _ _ _ b = _
    rw [upd_ne _ _ hb]
    exact h.other b hb
  · rw [hv]; exact h.le.trans hle
  · intro q h1 h2; rw [hv]; exact hle.2 q (h.new q h1 h2)
  · rw [hv]
    intro p hp
    rcases ho p hp with h1 | h1
    · rcases h.org p h1 with h1 | h1 | ⟨m, h1, h2, h3⟩
      · exact .inl h1
      · exact .inr (.inl h1)
      · exact .inr (.inr ⟨m, h1, h2, fun l => Nat.le_trans (h3 l) (hle.1 l)⟩)
    · exact .inr (.inr h1)

theorem Mid.load {s s1 : XState w V} {a : OpId} {t : List (REv V)} (h : Mid tr s a s1 t) {n : Nat} {m : LMsg} {acq : Bool}
    (hm : m ∈ s.lock) : Mid tr s a (s1.load a n m acq) t := by
  unfold XState.load
  split
  · refine h.setView ((View.le_see _ _ _).trans (View.le_join_left _ _)) fun p hp => ?_
    rcases List.mem_append.1 hp with hp | hp
    · exact .inl hp
    · exact .inr ⟨m, hm, hp, (View.le_join_right _ _).1⟩
  · exact h.setView (View.le_see _ _ _) fun p hp => .inl hp

theorem Mid.put {s s1 : XState w V} {a : OpId} {t : List (REv V)} (h : Mid tr s a s1 t) {n : Nat} {v : Cell.Bits} {rel : Bool}
    {base : View} {hd : OpId} : Mid tr s a (s1.put a n v rel base hd) t :=
  (h.setView (View.le_see _ .lock n) fun _ hp => .inl hp).congr rfl rfl rfl

theorem Mid.out {s : XState w V} {a : OpId} {k : Cell.State Nat × List (Cell.Event Nat)} {l : Cell.Bits} {x : Option Nat}
    {r : XState w V × List (REv V)} (h : Mid tr s a r.1 r.2) (hc : r.1.cell = s.cell.after a (k.1.pc a) l x)
    (hmap : r.2.map Prod.fst = k.2.map .cell) : Out tr s a k l x r :=
  ⟨hc, cellOf_map hmap, hmap, h.other, h.le, h.mem, h.new, h.hb, h.org⟩

theorem goto_cell (s : XState w V) (a : OpId) (p : Cell.PC Nat) : (s.goto a p).cell = s.cell.after a p s.lastVal s.latest := by
  rfl

theorem latest_snoc {ws : List (Nat × Option Nat)} {n : Nat} {x : Option Nat} :
    ((ws ++ [(n, x)]).getLast?.map Prod.snd).getD none = x := by
  simp

theorem Move.out {s : XState w V} {a : OpId} {k : Cell.State Nat × List (Cell.Event Nat)}
    {l : Cell.Bits} {x : Option Nat} {r : XState w V × List (REv V)} (hnow : s.core.now = tr.length)
    (h : Move co s a k l x r) : Out tr s a k l x r := by
  have h0 := Mid.refl (tr := tr) a hnow
  cases h with
  | quiet hc hw hs =>
    have h1 := (h0.congr (s2 := s.goto a (k.1.pc a)) rfl rfl rfl).emit k.2
    exact Mid.out h1 rfl (stamp_map ..)
  | waker hc he ho =>
    have h1 := (h0.congr (s2 := { s.goto a (k.1.pc a) with waiter := s.waiter ++ [(s.core.now, k.1.waiter)] }) rfl rfl rfl).emit k.2
    refine Mid.out h1 ?_ (stamp_map ..)
    unfold XState.doWaker XState.emit XState.cell XState.latest XState.lastVal Cell.State.after
    simp only [latest_snoc]
    rfl
  | load n m od hr hc hw hcl hod hcr =>
    have h1 := (((h0.load (readLock_mem hr) (n := n) (acq := od.acq)).congr
      (s2 := (s.load a n m od.acq).goto a (k.1.pc a)) rfl rfl rfl).emit k.2)
    exact Mid.out h1 rfl (stamp_map ..)
  | rmw n m od hr hn ht =>
    have h1 := (((h0.load (readLock_mem hr) (n := n) (acq := od.acq)).congr
      (s2 := (s.load a n m od.acq).goto a (k.1.pc a)) rfl rfl rfl).emit (k.2.takeWhile atomicEv)).put (n := n + 1)
        (v := k.1.lock) (rel := od.rel) (base := m.view) (hd := if s.cpc a = .waitStart then a else m.holder)
    have h2 := h1.emit (k.2.dropWhile atomicEv)
    refine Mid.out h2 ?_ ?_
    · have h1 : (s.doRmw a n m od k).1.lastVal = k.1.lock := by
        show (((_ : List LMsg) ++ [_]).getLast?.map LMsg.val).getD Cell.WAITING = _
        rw [List.getLast?_append]
        rfl
      show (⟨(s.doRmw a n m od k).1.lastVal, s.latest, _⟩ : Cell.State Nat) = _
      rw [h1]
      rfl
    · unfold XState.doRmw
      simp only [List.map_append]
      unfold XState.emit
      simp only [stamp_map]
      rw [← List.map_append, List.takeWhile_append_dropWhile]

/-- What a read-modify-write of `lock` does in addition. -/
structure RmwOut (tr : List (REv V)) (s : XState w V) (a : OpId) (n : Nat) (m : LMsg) (od : MOrd)
    (k : Cell.State Nat × List (Cell.Event Nat)) (r : XState w V × List (REv V)) (msg : LMsg) : Prop where
  lock : r.1.lock = s.lock ++ [msg]
  val : msg.val = k.1.lock
  holder : msg.holder = if s.cpc a = .waitStart then a else m.holder
  base : m.view.le msg.view
  ts : n + 1 ≤ msg.view.ts .lock
  own : od.rel = true → (s.core.view a).le msg.view
  new : od.rel = true → ∀ q, tr.length ≤ q → q < tr.length + (k.2.takeWhile atomicEv).length → q ∈ msg.view.hb
  org : ∀ p ∈ msg.view.hb, p ∈ m.view.hb ∨ p ∈ (s.core.view a).hb ∧ (s.core.view a).le msg.view ∨
    tr.length ≤ p ∧ p < tr.length + (k.2.takeWhile atomicEv).length
  acq : od.acq = true → m.view.le (r.1.core.view a)
  seen : n + 1 ≤ (r.1.core.view a).ts .lock
  bound : (s.core.view a).ts .lock ≤ n → m.view.ts .lock ≤ n → msg.view.ts .lock ≤ n + 1

theorem load_bound (s : XState w V) (a : OpId) (n : Nat) (m : LMsg) (acq : Bool) (h1 : (s.core.view a).ts .lock ≤ n)
    (h2 : m.view.ts .lock ≤ n) : ((s.load a n m acq).core.view a).ts .lock ≤ n := by
  have hv : (s.load a n m acq).core.view a =
      if acq then ((s.core.view a).see .lock n).join m.view else (s.core.view a).see .lock n := upd_self ..
  rw [hv]
  cases acq <;> simp [View.join, View.see] <;> omega

theorem load_view (s : XState w V) (a : OpId) (n : Nat) (m : LMsg) (acq : Bool) :
    (s.core.view a).le ((s.load a n m acq).core.view a) ∧ (acq = true → m.view.le ((s.load a n m acq).core.view a)) ∧
    ∀ p ∈ ((s.load a n m acq).core.view a).hb, p ∈ (s.core.view a).hb ∨ p ∈ m.view.hb := by
  have hv : (s.load a n m acq).core.view a =
      if acq then ((s.core.view a).see .lock n).join m.view else (s.core.view a).see .lock n := upd_self ..
  rw [hv]
  cases acq with
  | true =>
    refine ⟨(View.le_see _ _ _).trans (View.le_join_left _ _), fun _ => View.le_join_right _ _, fun p hp => ?_⟩
    exact List.mem_append.1 hp
  | false => exact ⟨View.le_see _ _ _, by simp, fun p hp => .inl hp⟩

theorem doRmw_out {s : XState w V} {a : OpId} {n : Nat} {m : LMsg} {od : MOrd}
    {k : Cell.State Nat × List (Cell.Event Nat)} (hnow : s.core.now = tr.length) :
    ∃ msg, RmwOut tr s a n m od k (s.doRmw a n m od k) msg := by
  obtain ⟨h1, h2, h3⟩ := load_view s a n m od.acq
  let s1 := (s.load a n m od.acq).goto a (k.1.pc a)
  let s2 := (s1.emit a (k.2.takeWhile atomicEv)).1
  have hv1 : s1.core.view a = (s.load a n m od.acq).core.view a := rfl
  have hv2 : s2.core.view a = ⟨(s1.core.view a).ts, List.range' s1.core.now (k.2.takeWhile atomicEv).length ++ (s1.core.view a).hb⟩ :=
    upd_self ..
  have hn1 : s1.core.now = tr.length := hnow
  have h12 : (s1.core.view a).le (s2.core.view a) := by
    rw [hv2]; exact ⟨fun _ => Nat.le_refl _, fun _ h => List.mem_append_right _ h⟩
  let h := if s.cpc a = .waitStart then a else m.holder
  let s3 := s2.put a (n + 1) k.1.lock od.rel m.view h
  have hv3 : s3.core.view a = (s2.core.view a).see .lock (n + 1) := upd_self ..
  have h4 : (s3.core.view a).le ((s3.emit a (k.2.dropWhile atomicEv)).1.core.view a) := (Wider.emit s3 a _).view a
  refine ⟨⟨k.1.lock, (if od.rel then (s2.core.view a).see .lock (n + 1) else View.bot.see .lock (n + 1)).join m.view, h⟩,
    rfl, rfl, rfl, View.le_join_right _ _, ?_, ?_, ?_, ?_, ?_, ?_, ?_⟩
  · refine Nat.le_trans ?_ ((View.le_join_left _ _).1 .lock)
    split <;> exact View.ts_see ..
  · intro hr
    simp only [hr, if_true]
    exact (h1.trans h12).trans ((View.le_see _ _ _).trans (View.le_join_left _ _))
  · intro hr q hq1 hq2
    simp only [hr, if_true]
    refine List.mem_append_left _ ?_
    show q ∈ (s2.core.view a).hb
    rw [hv2]
    refine List.mem_append_left _ ?_
    rw [List.mem_range'_1, hn1]
    exact ⟨hq1, hq2⟩
  · intro p hp
    rcases List.mem_append.1 hp with hp | hp
    · cases hr : od.rel with
      | false => simp [hr, View.see, View.bot] at hp
      | true =>
        simp only [hr, if_true] at hp
        have hp : p ∈ (s2.core.view a).hb := hp
        rw [hv2] at hp
        rcases List.mem_append.1 hp with hp | hp
        · rw [List.mem_range'_1, hn1] at hp
          exact .inr (.inr hp)
        · rcases h3 p hp with hp | hp
          · refine .inr (.inl ⟨hp, ?_⟩)
            simp only [if_true]
            exact (h1.trans h12).trans ((View.le_see _ _ _).trans (View.le_join_left _ _))
          · exact .inl hp
    · exact .inl hp
  · intro ha
    refine ((h2 ha).trans h12).trans (View.le.trans ?_ h4)
    rw [hv3]; exact View.le_see _ _ _
  · refine Nat.le_trans ?_ (h4.1 .lock)
    rw [hv3]; exact View.ts_see ..
  · intro hb1 hb2
    have hb3 := load_bound s a n m od.acq hb1 hb2
    have hb4 : (s2.core.view a).ts .lock ≤ n := by rw [hv2]; exact hb3
    show max ((if od.rel then (s2.core.view a).see .lock (n + 1) else View.bot.see .lock (n + 1)).ts .lock) (m.view.ts .lock) ≤ n + 1
    cases od.rel <;> simp [View.see, View.bot] <;> omega

/-- Steps that do not write `lock`. -/
theorem Move.calm {s : XState w V} {a : OpId} {k : Cell.State Nat × List (Cell.Event Nat)}
    {l : Cell.Bits} {x : Option Nat} {r : XState w V × List (REv V)} (h : Move co s a k l x r) :
    (r.1.lock = s.lock ∧ l = s.lastVal ∧ Calm s a (k.1.pc a) k.2 ∧
      (∀ e ∈ r.1.waiter, e ∈ s.waiter ∨ e.1 = s.core.now ∧ WakerAt r.2 0)) ∨
    ∃ n m od, s.readLock a n = some m ∧ n + 1 = s.lock.length ∧ r = s.doRmw a n m od k ∧ r.1.waiter = s.waiter ∧
      l = k.1.lock ∧ x = s.latest ∧ RTr co s.cell a od (k.1.pc a) k.1.lock k.2 := by
  cases h with
  | quiet hc hw hs => exact .inl ⟨rfl, rfl, hc, fun e he => .inl he⟩
  | waker hc he ho =>
    refine .inl ⟨rfl, rfl, hc, fun e h => ?_⟩
    rcases List.mem_append.1 h with h | h
    · exact .inl h
    · rw [List.mem_singleton.1 h]
      refine .inr ⟨rfl, .accEnd a, ?_, rfl⟩
      unfold XState.doWaker XState.emit
      rw [he]
      rfl
  | load n m od hr hc hw hcl hod hcr => exact .inl ⟨rfl, rfl, hc, fun e he => .inl he⟩
  | rmw n m od hr hn ht => exact .inr ⟨n, m, od, hr, hn, rfl, rfl, rfl, rfl, ht⟩

/-! ### Preservation -/

theorem WakerAt.append {n : Nat} {t : List (REv V)} (h : WakerAt tr n) : WakerAt (tr ++ t) n := by
  obtain ⟨e, h1, h2⟩ := h
  exact ⟨e, h1.append, h2⟩

theorem WakerAt.cases {n : Nat} {t : List (REv V)} (h : WakerAt (tr ++ t) n) :
    WakerAt tr n ∨ tr.length ≤ n ∧ n < (tr ++ t).length ∧ ∃ e ∈ cellOf t, wakerEv e = true := by
  obtain ⟨e, h1, h2⟩ := h
  rcases h1.cases with h | ⟨h3, h4⟩
  · exact .inl ⟨e, h, h2⟩
  · exact .inr ⟨h3, At.lt h1, e, h4, h2⟩

/-- The read-modify-writes touch no waker. -/
theorem RTr.noacc {s : Cell.State Nat} {a : OpId} {od : MOrd} {p : Cell.PC Nat} {l : Cell.Bits} {evs : List (Cell.Event Nat)}
    (h : RTr co s a od p l evs) : ∀ e ∈ evs, wakerEv e = false := by
  cases h with
  | lock => simp
  | unlock prev q evs h hl he =>
    rcases he with rfl | ⟨rfl, _⟩ | ⟨v, rfl⟩ <;> simp [wakerEv]
  | reset prev q x t p evs h hp => rcases hp with ⟨_, rfl⟩ | ⟨rfl, _⟩ <;> simp [wakerEv]
  | signal close p evs h hp => rcases hp with ⟨_, _, rfl⟩ | ⟨_, _, rfl⟩ <;> simp [wakerEv]
  | clear => simp

theorem after_pc_self (s : Cell.State Nat) (a : OpId) (p : Cell.PC Nat) (l : Cell.Bits) (x : Option Nat) :
    (s.after a p l x).pc a = p := by simp [Cell.State.after]

theorem after_pc_ne {s : Cell.State Nat} {a b : OpId} {p : Cell.PC Nat} {l : Cell.Bits} {x : Option Nat} (h : b ≠ a) :
    (s.after a p l x).pc b = s.pc b := by simp [Cell.State.after, h]

theorem Out.cpc {s : XState w V} {a : OpId} {k : Cell.State Nat × List (Cell.Event Nat)} {l : Cell.Bits} {x : Option Nat}
    {r : XState w V × List (REv V)} (h : Out tr s a k l x r) : r.1.cpc a = k.1.pc a ∧ ∀ b, b ≠ a → r.1.cpc b = s.cpc b := by
  have h1 : r.1.cpc = (s.cell.after a (k.1.pc a) l x).pc := by rw [← h.cell]; rfl
  rw [h1]
  exact ⟨after_pc_self .., fun b hb => after_pc_ne hb⟩

theorem CInv.pres (hstd : c.std = true) (hco : CellSync co) {s : XState w V} {a : OpId}
    {k : Cell.State Nat × List (Cell.Event Nat)} {l : Cell.Bits} {x : Option Nat} {r : XState w V × List (REv V)}
    (hnow : s.core.now = tr.length) (h : CInv c tr s) (ht : Cell.Tr False c s.cell a (k.1.pc a) l x k.2)
    (hm : Move co s a k l x r) : CInv c (tr ++ r.2) r.1 := by
  have ho := hm.out (tr := tr) hnow
  obtain ⟨hpa, hpb⟩ := ho.cpc
  obtain ⟨ow, hlk⟩ := h.exec.lockInv hstd
  have hown : ∀ b d, Cell.owns (s.cpc b) = true → Cell.owns (s.cpc d) = true → b = d := by
    intro b d hb hd
    have := (hlk.uniq b hb).symm.trans (hlk.uniq d hd)
    exact Option.some.inj this
  have hheld : ∀ b, Cell.owns (s.cpc b) = true → Cell.lockOk s.lastVal (s.cpc b) = true := fun b hb => hlk.held b (hlk.uniq b hb)
  have hexec : Cell.WExec False c (cellOf (tr ++ r.2)) r.1.cell := by
    rw [ho.cell, cellOf_append, ho.evs]
    exact h.exec.step ht
  have hpk : ∀ p : Cell.PC Nat, parked p = true → Cell.owns p = true := by
    intro p; cases p <;> simp [parked, Cell.owns]
  rcases hm.calm with ⟨hlock, hl, hc, hwt⟩ | ⟨n, m, od, hr, hn, hre, hwt, hl, hx, hrt⟩
  · -- `lock` is not written
    have hac : ∀ n, WakerAt (tr ++ r.2) n → WakerAt tr n ∨ tr.length ≤ n ∧ n < (tr ++ r.2).length ∧ Cell.owns (s.cpc a) = true := by
      intro n hn
      rcases hn.cases with h1 | ⟨h1, h2, e, h3, h4⟩
      · exact .inl h1
      · rw [ho.evs] at h3
        exact .inr ⟨h1, h2, hc.acc e h3 h4⟩
    refine ⟨hexec, by rw [hlock]; exact h.ne, by rw [hlock]; exact h.mono, ?_, ?_, ?_, ?_⟩
    · intro b hb j mj hj hmj
      rw [hlock] at hmj ⊢
      by_cases hba : b = a
      · subst hba
        rw [hpa] at hb
        exact h.hold b (hc.parked hb) j mj (Nat.le_trans (ho.le.1 .lock) hj) hmj
      · rw [hpb b hba] at hb
        rw [ho.other b hba] at hj
        exact h.hold b hb j mj hj hmj
    · intro b hb n hn
      by_cases hba : b = a
      · subst hba
        rw [hpa, hc.owns] at hb
        rcases hac n hn with h1 | ⟨h1, h2, _⟩
        · exact ho.le.2 n (h.accOwn b hb n h1)
        · exact ho.new n h1 h2
      · rw [hpb b hba] at hb
        rw [ho.other b hba]
        rcases hac n hn with h1 | ⟨h1, h2, h3⟩
        · exact h.accOwn b hb n h1
        · exact absurd (hown b a hb h3) hba
    · intro m hm hv n hn
      rw [hlock] at hm
      rcases hac n hn with h1 | ⟨h1, h2, h3⟩
      · exact h.accFree m hm hv n h1
      · exfalso
        have h4 := hheld a h3
        rw [lastVal_of hm, hv] at h4
        revert h4 h3
        generalize s.cpc a = p
        cases p <;> simp [Cell.lockOk, Cell.owns, Cell.WAITING]
    · intro e he
      rcases hwt e he with h1 | ⟨h1, h2⟩
      · exact (h.pos e h1).append
      · obtain ⟨e', h2, h3⟩ := h2
        rw [h1, hnow]
        refine ⟨e', ?_, h3⟩
        unfold AtX at h2 ⊢
        rw [List.map_append, List.getElem?_append_right (by simp), List.length_map, Nat.sub_self]
        exact h2
  · -- a read-modify-write
    subst hre hl
    obtain ⟨msg, hmo⟩ := doRmw_out (tr := tr) (s := s) (a := a) (n := n) (m := m) (od := od) (k := k) hnow
    obtain ⟨hrl, hrt'⟩ := readLock_spec hr
    have hlast := last_of_read hrl hn
    have hlv := lastVal_of hlast
    have hac : ∀ n', WakerAt (tr ++ (s.doRmw a n m od k).2) n' → WakerAt tr n' := by
      intro n' hn'
      rcases hn'.cases with h1 | ⟨h1, h2, e, h3, h4⟩
      · exact h1
      · rw [ho.evs] at h3
        rw [hrt.noacc e h3] at h4
        cases h4
    have hnewlast : (s.doRmw a n m od k).1.lock.getLast? = some msg := by rw [hmo.lock]; simp
    have hget : ∀ (j : Nat) mj, (s.doRmw a n m od k).1.lock[j]? = some mj → s.lock[j]? = some mj ∨ j = n + 1 ∧ mj = msg := by
      intro j mj hj
      rw [hmo.lock] at hj
      rcases Nat.lt_or_ge j s.lock.length with h1 | h1
      · rw [List.getElem?_append_left h1] at hj
        exact .inl hj
      · rw [List.getElem?_append_right h1] at hj
        rcases Nat.eq_zero_or_pos (j - s.lock.length) with h0 | h0
        · rw [h0] at hj
          exact .inr ⟨by omega, (Option.some.inj hj).symm⟩
        · rw [List.getElem?_eq_none (by simp only [List.length_singleton]; omega)] at hj
          cases hj
    have hle : ∀ (j : Nat) mj, s.lock[j]? = some mj → j ≤ n := by
      intro j mj hj
      have := (List.getElem?_eq_some_iff.1 hj).1
      omega
    refine ⟨hexec, by rw [hmo.lock]; simp, ?_, ?_, ?_, ?_, ?_⟩
    · intro j j' mj mj' hjj hj hj' hcl
      rcases hget j' mj' hj' with h1 | ⟨rfl, rfl⟩
      · rcases hget j mj hj with h2 | ⟨rfl, rfl⟩
        · exact h.mono j j' mj mj' hjj h2 h1 hcl
        · have := hle _ _ h1; omega
      · rcases hget j mj hj with h2 | ⟨rfl, rfl⟩
        · have h3 := h.mono j n mj m (hle _ _ h2) h2 hrl hcl
          rw [hmo.val]
          have hlv : s.cell.lock = m.val := hlv
          generalize hkl : k.1.lock = l at hrt
          generalize hkp : k.1.pc a = p at hrt
          generalize hke : k.2 = es at hrt
          cases hrt with
          | lock _ hl0 => rw [← hlv, hl0] at h3; revert h3; decide
          | unlock _ _ _ _ hl0 => rw [← hlv, hl0] at h3; revert h3; decide
          | reset => rw [hlv, Cell.contains_and_closed]; exact h3
          | signal close => rw [hlv, Cell.contains_or_signal, h3]; rfl
          | clear => rw [hlv, Cell.contains_clear]; exact h3
        · exact hcl
    · intro b hb j mj hj hmj
      by_cases hba : b = a
      · subst hba
        rw [hpa] at hb
        have hj : n + 1 ≤ j := Nat.le_trans hmo.seen hj
        rcases hget j mj hmj with h1 | ⟨rfl, rfl⟩
        · have := hle _ _ h1; omega
        have hv : k.1.lock = Cell.PARKING := by
          generalize hkl : k.1.lock = l at hrt
          generalize hkp : k.1.pc b = p at hrt hb
          generalize hke : k.2 = es at hrt
          cases hrt with
          | lock _ hl0 => rfl
          | unlock => cases hb
          | reset _ _ _ _ _ _ _ hp => rcases hp with ⟨rfl, _⟩ | ⟨_, _, _, _, _, rfl⟩ <;> cases hb
          | signal _ _ _ _ hp => rcases hp with ⟨_, rfl, _⟩ | ⟨_, rfl, _⟩ <;> cases hb
          | clear => cases hb
        refine ⟨.inl (hmo.val.trans hv), fun j' mj' hjj hj' => ?_⟩
        rcases hget j' mj' hj' with h1 | ⟨rfl, rfl⟩
        · have := hle _ _ h1; omega
        · rw [hmo.val, hv]; rfl
      · rw [hpb b hba] at hb
        rw [ho.other b hba] at hj
        have hbo := hpk _ hb
        have hl1 := hheld b hbo
        have hl2 : s.lastVal = 1#3 ∨ s.lastVal = 3#3 ∨ s.lastVal = 7#3 := by
          revert hl1 hb
          generalize s.cpc b = p
          cases p <;> simp [Cell.lockOk, parked]
        have hnv : (k.1.lock = 1#3 ∨ k.1.lock = 3#3 ∨ k.1.lock = 7#3) ∧ s.lastVal ||| k.1.lock = k.1.lock := by
          generalize hkl : k.1.lock = l at hrt
          generalize hkp : k.1.pc a = p at hrt hb
          generalize hke : k.2 = es at hrt
          have hna : ∀ p, s.cpc a = p → Cell.owns p = true → False := by
            intro p hp hpo
            rw [← hp] at hpo
            exact hba (hown b a hbo hpo)
          cases hrt with
          | lock _ hl0 =>
            have hl0 : s.lastVal = Cell.WAITING := hl0
            rw [hl0] at hl2; exact absurd hl2 (by decide)
          | unlock _ _ _ h0 => exact (hna _ h0 rfl).elim
          | reset _ _ _ _ _ _ h0 => exact (hna _ h0 rfl).elim
          | signal close _ _ _ hp =>
            show (s.lastVal ||| _ = _ ∨ s.lastVal ||| _ = _ ∨ s.lastVal ||| _ = _) ∧ _ ||| (s.lastVal ||| _) = s.lastVal ||| _
            rcases hl2 with h0 | h0 | h0 <;> rw [h0] <;> cases close <;> decide
          | clear _ h0 => exact (hna _ h0 rfl).elim
        rcases hget j mj hmj with h1 | ⟨rfl, rfl⟩
        · obtain ⟨h2, h3⟩ := h.hold b hb j mj hj h1
          refine ⟨h2, fun j' mj' hjj hj' => ?_⟩
          rcases hget j' mj' hj' with h4 | ⟨rfl, rfl⟩
          · exact h3 j' mj' hjj h4
          · have h5 := h3 n m (hle _ _ h1) hrl
            rw [hmo.val]
            have h6 := hnv.2
            rw [hlv] at h6
            rw [← h6, ← BitVec.or_assoc, h5]
        · refine ⟨by rw [hmo.val]; exact hnv.1, fun j' mj' hjj hj' => ?_⟩
          rcases hget j' mj' hj' with h1 | ⟨rfl, rfl⟩
          · have := hle _ _ h1; omega
          · exact BitVec.or_self
    · intro b hb n' hn'
      replace hn' := hac n' hn'
      by_cases hba : b = a
      · subst hba
        by_cases hob : Cell.owns (s.cpc b) = true
        · exact ho.le.2 _ (h.accOwn b hob n' hn')
        · rw [hpa] at hb
          have hfree := fun hv => h.accFree m hlast hv n' hn'
          have hlv : s.cell.lock = m.val := hlv
          have hacq : od.acq = true ∧ m.val = Cell.WAITING := by
            have hna : ∀ p, s.cpc b = p → Cell.owns p = true → False := by
              intro p hp hpo
              rw [← hp] at hpo
              exact hob hpo
            generalize hkl : k.1.lock = l at hrt
            generalize hkp : k.1.pc b = p at hrt hb
            generalize hke : k.2 = es at hrt
            cases hrt with
            | lock _ hl0 => exact ⟨hco.startAcq, hlv.symm.trans hl0⟩
            | unlock _ _ _ h0 => exact (hna _ h0 rfl).elim
            | reset _ _ _ _ _ _ h0 => exact (hna _ h0 rfl).elim
            | signal close _ _ _ hp =>
              rcases hp with ⟨h1, _⟩ | ⟨_, rfl, _⟩
              · exact ⟨hco.signalAcq, hlv.symm.trans h1⟩
              · cases hb
            | clear _ h0 => exact (hna _ h0 rfl).elim
          exact (hmo.acq hacq.1).2 _ (hfree hacq.2)
      · rw [hpb b hba] at hb
        rw [ho.other b hba]
        exact h.accOwn b hb n' hn'
    · intro m' hm' hv n' hn'
      have hn' := hac n' hn'
      obtain rfl : msg = m' := Option.some.inj (hnewlast.symm.trans hm')
      rw [hmo.val] at hv
      have hown' : ∀ p, s.cpc a = p → Cell.owns p = true → n' ∈ (s.core.view a).hb := by
        intro p hp hpo
        rw [← hp] at hpo
        exact h.accOwn a hpo n' hn'
      have hrel : n' ∈ (s.core.view a).hb ∧ od.rel = true := by
        generalize hkl : k.1.lock = l at hrt hv
        generalize hkp : k.1.pc a = p at hrt
        generalize hke : k.2 = es at hrt
        cases hrt with
        | lock _ hl0 => exact absurd hv (by decide)
        | unlock _ _ _ h0 => exact ⟨hown' _ h0 rfl, hco.unlockRel⟩
        | reset _ _ _ _ _ _ h0 => exact ⟨hown' _ h0 rfl, hco.resetRel⟩
        | signal close _ _ _ hp =>
          exfalso
          have : ∀ x : Cell.Bits, x ||| (Cell.NOTIFYING ||| (if close then Cell.TX_CLOSED else Cell.WAITING)) ≠ Cell.WAITING := by
            cases close <;> decide
          exact this _ hv
        | clear _ h0 => exact ⟨hown' _ h0 rfl, hco.clearRel⟩
      exact (hmo.own hrel.2).2 _ hrel.1
    · intro e he
      exact (h.pos e he).append

theorem CInv.init : CInv c [] (XState.init w V) where
  exec := .init
  ne := by simp [XState.init]
  mono := by
    intro j j' m m' hjj hj hj' hc
    have : m ∈ [(⟨Cell.WAITING, .bot, 0⟩ : LMsg)] := List.mem_of_getElem? hj
    rw [List.mem_singleton.1 this] at hc
    exact absurd hc (by decide)
  hold := by intro a h; cases h
  accOwn := by intro a h; cases h
  accFree := by intro m hm hv n hn; obtain ⟨e, h1, _⟩ := hn; simp [AtX] at h1
  pos := by intro e he; cases he

/-- Steps of the ring buffer have no events of the cell. -/
theorem cellOf_rstep {s : RState w V} {act : RAct V} {r : RState w V × List (REv V)} (hs : rstep o cap s act = some r) :
    cellOf r.2 = [] := by
  have hcs : ∀ hb n (evs : List (Event V)), cellOf (cstamp hb n evs) = [] := by
    intro hb n evs
    refine List.filterMap_eq_nil_iff.2 fun e he => ?_
    obtain ⟨k, hk⟩ := List.mem_iff_getElem?.1 he
    obtain ⟨x, _, hx⟩ := stamp_fst hk
    rw [hx]; rfl
  cases rstep_shape hs with
  | emit => exact hcs ..
  | load => exact hcs ..
  | rmw => exact hcs ..
  | commit => exact hcs ..
  | release => exact hcs ..
  | sync => rfl

theorem CInv.core {s : XState w V} (h : CInv c tr s) {act : RAct V} {r : RState w V × List (REv V)}
    (hs : rstep o cap s.core act = some r) : CInv c (tr ++ r.2) { s with core := r.1 } := by
  have he := cellOf_rstep hs
  have hx := (rstep_shape hs).ext
  have hac : ∀ n, WakerAt (tr ++ r.2) n → WakerAt tr n := by
    intro n hn
    rcases hn.cases with h1 | ⟨_, _, e, h3, _⟩
    · exact h1
    · rw [he] at h3; cases h3
  refine ⟨?_, h.ne, h.mono, ?_, ?_, ?_, fun e he => (h.pos e he).append⟩
  · rw [cellOf_append, he, List.append_nil]; exact h.exec
  · exact fun a ha j m hj => h.hold a ha j m (Nat.le_trans ((hx.view a).1 .lock) hj)
  · exact fun a ha n hn => (hx.view a).2 _ (h.accOwn a ha n (hac n hn))
  · exact fun m hm hv n hn => h.accFree m hm hv n (hac n hn)

end Thingbuf.RA
