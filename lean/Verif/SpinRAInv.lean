import Verif.SpinRA
/-
Invariant of the spin lock on the release/acquire machine.
-/
namespace Thingbuf.SpinRA

variable {T : Type} {o : Orders} {d : T} {tr : Trace T} {s s' : State T}

/-- What is true of the event `e` after the events `pre`. -/
def Ok (d : T) (pre : Trace T) (e : Event T × List Nat) : Prop :=
  (∀ p < pre.length, p ∈ e.2) ∧ match e.1 with
    | .lock _ => holder pre = none
    | .read a x => holder pre = some a ∧ x = lastWrite d pre
    | .write a _ => holder pre = some a
    | .unlock a => holder pre = some a

structure Inv (d : T) (tr : Trace T) (s : State T) : Prop where
  now : s.now = tr.length
  first : s.first = d
  data : (s.data.getLast?.map Prod.snd).getD d = lastWrite d tr
  pos : ∀ e ∈ s.data, e.1 < s.now
  hold : ∀ a, s.pc a = .held ↔ holder tr = some a
  last : ∃ ms m, s.msgs = ms ++ [m] ∧ (∀ m' ∈ s.msgs, m'.ts ≤ m.ts) ∧ (m.val = true ↔ holder tr ≠ none) ∧
    (∀ a, holder tr = some a → m.ts ≤ (s.view a).ts ∧ ∀ i < s.now, i ∈ (s.view a).hb) ∧
    (holder tr = none → ∀ i < s.now, i ∈ m.view.hb)
  adj : ∀ m ∈ s.msgs, m.val = false → s.msgs.getLast? = some m ∨ ∃ m2 ∈ s.msgs, m2.frm = m.ts ∧ m.ts < m2.ts
  ok : ∀ pre e post, tr = pre ++ e :: post → Ok d pre e

theorem holder_snoc (tr : Trace T) (e : Event T × List Nat) :
    holder (tr ++ [e]) = match e.1.change with | some x => x | none => holder tr := by
  unfold holder
  rw [List.filterMap_append]
  cases h : e.1.change with
  | none => simp [List.filterMap_cons, h]
  | some x => simp [List.filterMap_cons, h]

theorem lastWrite_snoc (tr : Trace T) (e : Event T × List Nat) :
    lastWrite d (tr ++ [e]) = match e.1 with | .write _ x => x | _ => lastWrite d tr := by
  unfold lastWrite
  rw [List.filterMap_append]
  obtain ⟨e, hb⟩ := e
  cases e <;> simp

theorem ok_snoc {e : Event T × List Nat} (h : ∀ pre e post, tr = pre ++ e :: post → Ok d pre e) (he : Ok d tr e) :
    ∀ pre e' post, tr ++ [e] = pre ++ e' :: post → Ok d pre e' := by
  intro pre e' post heq
  rcases List.eq_nil_or_concat post with rfl | ⟨post, x, rfl⟩
  · obtain ⟨rfl, h2⟩ := List.append_inj' heq rfl
    cases h2; exact he
  · have : tr ++ [e] = (pre ++ e' :: post) ++ [x] := by rw [heq]; simp
    obtain ⟨rfl, -⟩ := List.append_inj' this rfl
    exact h _ _ _ rfl

theorem State.readMsg_mem {a : OpId} {t : Nat} {m : Msg} (h : s.readMsg a t = some m) : m ∈ s.msgs := by
  unfold State.readMsg at h
  split at h
  · exact List.mem_of_find?_eq_some h
  · cases h

theorem State.fits_spec {x y : Nat} (h : s.fits x y = true) : x < y ∧ ∀ m ∈ s.msgs, m.ts ≤ x ∨ y ≤ m.frm := by
  simpa [State.fits] using h

theorem Inv.view_mono (h : Inv d tr s) (v : OpId → View) (hv : ∀ a, (s.view a).ts ≤ (v a).ts ∧ ∀ i ∈ (s.view a).hb, i ∈ (v a).hb)
    {pc : OpId → Spin.PC} (hpc : ∀ a, pc a = .held ↔ s.pc a = .held) : Inv d tr { s with view := v, pc := pc } := by
  obtain ⟨ms, m, h1, h2, h3, h4, h5⟩ := h.last
  exact { h with
    hold := fun a => (hpc a).trans (h.hold a)
    last := ⟨ms, m, h1, h2, h3, fun a ha => ⟨Nat.le_trans (h4 a ha).1 (hv a).1, fun i hi => (hv a).2 i ((h4 a ha).2 i hi)⟩, h5⟩ }

theorem upd_held {pc : OpId → Spin.PC} {a : OpId} {p : Spin.PC} (h1 : pc a ≠ .held) (h2 : p ≠ .held) (b : OpId) :
    upd pc a p b = .held ↔ pc b = .held := by
  unfold upd
  split
  · next h => subst h; exact ⟨fun h => absurd h h2, fun h => absurd h h1⟩
  · exact Iff.rfl

theorem setPC_pc (k : Spin.State Unit) (a : Nat) (p : Spin.PC) : (Spin.setPC k a p).pc a = p := by simp [Spin.setPC]

theorem Inv.read_last (h : Inv d tr s) {a : OpId} (ha : holder tr = some a) {k : Nat} {x : T} (hx : s.visible a k = some x) :
    x = lastWrite d tr := by
  unfold State.visible at hx
  split at hx
  · next hc =>
    cases hx
    obtain ⟨ms, m, -, -, -, h4, -⟩ := h.last
    have hk : s.data.length ≤ k := by
      refine Nat.le_of_not_lt fun hlt => ?_
      have hd : s.data[k]? = some s.data[k] := List.getElem?_eq_getElem hlt
      have hm : s.data[k] ∈ s.data.drop k := List.mem_of_getElem? (i := 0) (by simp [hd])
      exact hc.2 _ hm ((h4 a ha).2 _ (h.pos _ (List.mem_of_getElem? hd)))
    have hk : k = s.data.length := Nat.le_antisymm hc.1 hk
    rw [← h.data]
    subst hk
    rw [List.getLast?_eq_getElem?, h.first]
    split
    · next h0 => rw [List.length_eq_zero_iff.1 h0]; rfl
    · rfl
  · cases hx

theorem Inv.emit (h : Inv d tr s) {a : OpId} {e : Event T} {data : List (Nat × T)} (ha : holder tr = some a)
    (hc : e.change = none) (he : Ok d tr (e, (s.view a).hb))
    (hd : (data.getLast?.map Prod.snd).getD d = lastWrite d (tr ++ [(e, (s.view a).hb)])) (hp : ∀ e ∈ data, e.1 < s.now + 1) :
    Inv d (tr ++ [(e, (s.view a).hb)]) (({ s with data := data }).emit a e).1 := by
  have hh : holder (tr ++ [(e, (s.view a).hb)]) = holder tr := by rw [holder_snoc, hc]
  obtain ⟨ms, m, h1, h2, h3, h4, h5⟩ := h.last
  constructor
  · simp [State.emit, h.now]
  · exact h.first
  · exact hd
  · exact hp
  · intro b; rw [hh]; exact h.hold b
  · refine ⟨ms, m, h1, h2, by rw [hh]; exact h3, ?_, ?_⟩
    · intro b hb
      rw [hh, ha] at hb
      cases hb
      refine ⟨by simpa [State.emit, upd] using (h4 a ha).1, fun i hi => ?_⟩
      simp only [State.emit, upd, if_pos]
      rcases Nat.lt_succ_iff_lt_or_eq.1 hi with hi | rfl
      · exact List.mem_cons_of_mem _ ((h4 a ha).2 i hi)
      · exact List.mem_cons_self
    · intro hn; rw [hh, ha] at hn; cases hn
  · exact h.adj
  · exact ok_snoc h.ok he

theorem Inv.snoc_msgs {ms : List Msg} {m : Msg} (h : ∀ m ∈ s.msgs, m.val = false → s.msgs.getLast? = some m ∨ ∃ m2 ∈ s.msgs, m2.frm = m.ts ∧ m.ts < m2.ts)
    (hs : s.msgs = ms ++ [m]) {n : Msg} (hn : m.val = false → n.frm = m.ts ∧ m.ts < n.ts) :
    ∀ m' ∈ s.msgs ++ [n], m'.val = false → (s.msgs ++ [n]).getLast? = some m' ∨ ∃ m2 ∈ s.msgs ++ [n], m2.frm = m'.ts ∧ m'.ts < m2.ts := by
  intro m' hm hv
  rcases List.mem_append.1 hm with hm | hm
  · right
    rcases h m' hm hv with h1 | ⟨m2, h1, h2⟩
    · rw [hs] at h1
      simp at h1
      subst h1
      exact ⟨n, by simp, hn hv⟩
    · exact ⟨m2, List.mem_append_left _ h1, h2⟩
  · left
    simp at hm
    simp [hm]

theorem Inv.step (hacq : o.casOk.acq = true) (hrel : o.unlock.rel = true) (h : Inv d tr s) {act : Act T} {evs : Trace T}
    (hs : step o s act = some (s', evs)) : Inv d (tr ++ evs) s' := by
  cases act with
  | call a =>
    simp only [SpinRA.step, Spin.step] at hs
    split at hs
    · next hp =>
      cases hs
      rw [List.append_nil]
      simp only [State.goto, setPC_pc]
      exact h.view_mono s.view (fun a => ⟨Nat.le_refl _, fun _ hi => hi⟩)
        (upd_held (by have : s.pc a = .idle := hp; rw [this]; exact fun h => by cases h) (fun h => by cases h))
    · cases hs
  | run a rd wr =>
    simp only [SpinRA.step] at hs
    split at hs
    · cases hs
    · next m hm =>
      have hmem := State.readMsg_mem hm
      have mono : ∀ (q : Bool) (b : OpId), (s.view b).ts ≤ ((s.load a m q).view b).ts ∧ ∀ i ∈ (s.view b).hb, i ∈ ((s.load a m q).view b).hb := by
        intro q b
        simp only [State.load, upd]
        split
        · next e => subst e; exact ⟨Nat.le_max_left _ _, fun i hi => List.mem_append_left _ hi⟩
        · exact ⟨Nat.le_refl _, fun i hi => hi⟩
      cases hp : s.pc a with
      | idle => simp [Spin.step, State.snap, hp] at hs
      | held => simp [Spin.step, State.snap, hp] at hs
      | spin =>
        have : ∃ p, p ≠ .held ∧ evs = [] ∧ s' = (s.load a m o.spin.acq).goto a p := by
          cases hv : m.val <;> simp [Spin.step, State.snap, hp, hv, setPC_pc] at hs <;>
            exact ⟨_, by simp, hs.2, hs.1.symm⟩
        obtain ⟨p, hne, rfl, rfl⟩ := this
        rw [List.append_nil]
        exact h.view_mono _ (mono _) (upd_held (by show s.pc a ≠ _; rw [hp]; exact fun h => by cases h) hne)
      | cas =>
        cases hv : m.val with
        | true =>
          have : evs = [] ∧ s' = (s.load a m o.casFail.acq).goto a .spin := by
            simp [Spin.step, State.snap, hp, hv, setPC_pc] at hs
            exact ⟨hs.2, hs.1.symm⟩
          obtain ⟨rfl, rfl⟩ := this
          rw [List.append_nil]
          exact h.view_mono _ (mono _) (upd_held (by show s.pc a ≠ _; rw [hp]; exact fun h => by cases h) (fun h => by cases h))
        | false =>
          have : s.fits m.ts wr = true ∧ evs = [(.lock a, (s.view a).hb ++ m.view.hb)] ∧
              s' = ((((s.load a m true).goto a .held).emit a (.lock a)).1.put a m.ts wr true o.casOk.rel m.view.hb) := by
            simp [Spin.step, State.snap, hp, hv, Spin.setPC] at hs
            rw [hacq] at hs
            exact ⟨hs.1, by rw [← hs.2.2]; simp [State.emit, State.goto, State.load, upd], hs.2.1.symm⟩
          obtain ⟨hf, rfl, rfl⟩ := this
          obtain ⟨hlt, hfit⟩ := State.fits_spec hf
          obtain ⟨ms, l, h1, h2, h3, h4, h5⟩ := h.last
          have hl : l = m := by
            rcases h.adj m hmem hv with h6 | ⟨m2, h6, h7, h8⟩
            · rw [h1] at h6; simpa using h6
            · rcases hfit m2 h6 with h9 | h9 <;> omega
          subst hl
          have hno : holder tr = none := by
            cases hh : holder tr with
            | none => rfl
            | some b => exact absurd (h3.2 (by simp [hh])) (by simp [hv])
          have hh : ∀ hb, holder (tr ++ [(Event.lock a, hb)]) = some a := fun hb => by rw [holder_snoc]; rfl
          constructor
          · simp [State.put, State.emit, State.goto, State.load, h.now]
          · exact h.first
          · rw [lastWrite_snoc]; exact h.data
          · intro e he; exact Nat.lt_succ_of_lt (h.pos e he)
          · intro b
            rw [hh]
            simp only [State.put, State.emit, State.goto, State.load, upd]
            split
            · next e => subst e; simp
            · next e =>
              refine ⟨fun hb => ?_, fun hb => ?_⟩
              · rw [h.hold, hno] at hb; cases hb
              · cases hb; exact absurd rfl e
          · refine ⟨s.msgs, _, rfl, ?_, ?_, ?_, ?_⟩
            · intro m' hm'
              rcases List.mem_append.1 hm' with hm' | hm'
              · exact Nat.le_trans (h2 m' hm') (Nat.le_of_lt hlt)
              · simp at hm'; rw [hm']; exact Nat.le_refl _
            · rw [hh]; simp
            · intro b hb
              rw [hh] at hb
              cases hb
              simp only [State.put, State.emit, State.goto, State.load, upd, if_pos]
              refine ⟨Nat.le_max_right _ _, fun i hi => ?_⟩
              rcases Nat.lt_succ_iff_lt_or_eq.1 hi with hi | rfl
              · exact List.mem_cons_of_mem _ (List.mem_append_right _ (h5 hno i hi))
              · exact List.mem_cons_self
            · intro hn; rw [hh] at hn; cases hn
          · exact Inv.snoc_msgs (n := ⟨_, _, _, _⟩) h.adj h1 (fun _ => ⟨rfl, hlt⟩)
          · refine ok_snoc h.ok ⟨fun p hp => List.mem_append_right _ (h5 hno p (by rw [h.now]; exact hp)), hno⟩
  | read a k =>
    simp only [SpinRA.step] at hs
    split at hs
    · next hp =>
      cases hx : s.visible a k with
      | none => rw [hx] at hs; cases hs
      | some x =>
        rw [hx] at hs
        cases hs
        have ha := (h.hold a).1 hp
        obtain ⟨ms, m, -, -, -, h4, -⟩ := h.last
        refine h.emit (data := s.data) ha rfl ⟨fun p hp => (h4 a ha).2 p (by rw [h.now]; exact hp), ha, h.read_last ha hx⟩ ?_ ?_
        · rw [lastWrite_snoc]; exact h.data
        · exact fun e he => Nat.lt_succ_of_lt (h.pos e he)
    · cases hs
  | write a x =>
    simp only [SpinRA.step, Spin.step] at hs
    split at hs
    · next hp =>
      cases hs
      have ha := (h.hold a).1 hp
      obtain ⟨ms, m, -, -, -, h4, -⟩ := h.last
      refine h.emit ha rfl ⟨fun p hp => (h4 a ha).2 p (by rw [h.now]; exact hp), ha⟩ ?_ ?_
      · rw [lastWrite_snoc]; simp
      · intro e he
        rcases List.mem_append.1 he with he | he
        · exact Nat.lt_succ_of_lt (h.pos e he)
        · simp at he; rw [he]; exact Nat.lt_succ_self _
    · cases hs
  | unlock a wr =>
    simp only [SpinRA.step, Spin.step] at hs
    split at hs
    · next hp =>
      have ha := (h.hold a).1 hp
      simp only [Option.bind_some] at hs
      split at hs
      · next hw =>
        cases hs
        obtain ⟨ms, m, h1, h2, h3, h4, h5⟩ := h.last
        have hm : m.val = true := h3.2 (by simp [ha])
        have hlt : m.ts < wr := Nat.lt_of_le_of_lt (h4 a ha).1 hw.1
        have hh : ∀ hb, holder (tr ++ [(Event.unlock a, hb)]) = none := fun hb => by rw [holder_snoc]; rfl
        constructor
        · simp [State.put, State.emit, State.goto, h.now]
        · exact h.first
        · show _ = lastWrite d (tr ++ [_])
          rw [lastWrite_snoc]; exact h.data
        · intro e he; exact Nat.lt_succ_of_lt (h.pos e he)
        · intro b
          show _ ↔ holder (tr ++ [_]) = _
          rw [hh]
          simp only [State.put, State.emit, State.goto, upd, Spin.setPC]
          split
          · simp
          · next e =>
            refine ⟨fun hb => ?_, fun hb => by cases hb⟩
            rw [h.hold, ha] at hb
            cases hb
            exact absurd rfl e
        · refine ⟨s.msgs, _, rfl, ?_, ?_, ?_, ?_⟩
          · intro m' hm'
            rcases List.mem_append.1 hm' with hm' | hm'
            · exact Nat.le_trans (h2 m' hm') (Nat.le_of_lt hlt)
            · simp at hm'; rw [hm']; exact Nat.le_refl _
          · show _ ↔ holder (tr ++ [_]) ≠ _
            rw [hh]; simp [Spin.setPC]
          · intro b hb
            have hb : holder (tr ++ [_]) = some b := hb
            rw [hh] at hb; cases hb
          · intro _ i hi
            simp only [hrel, if_true, List.append_nil, State.emit, State.goto, upd]
            rcases Nat.lt_succ_iff_lt_or_eq.1 hi with hi | rfl
            · exact List.mem_cons_of_mem _ ((h4 a ha).2 i hi)
            · exact List.mem_cons_self
        · exact Inv.snoc_msgs (n := ⟨_, _, _, _⟩) h.adj h1 (fun hc => by rw [hm] at hc; cases hc)
        · exact ok_snoc h.ok ⟨fun p hp => (h4 a ha).2 p (by rw [h.now]; exact hp), ha⟩
      · cases hs
    · cases hs
  | sync a b =>
    cases hs
    rw [List.append_nil]
    refine h.view_mono _ (fun c => ?_) (fun _ => Iff.rfl)
    simp only [upd]
    split
    · next e => subst e; exact ⟨Nat.le_max_left _ _, fun i hi => List.mem_append_left _ hi⟩
    · exact ⟨Nat.le_refl _, fun i hi => hi⟩

theorem Inv.init (d : T) : Inv d [] (State.init d) where
  now := rfl
  first := rfl
  data := rfl
  pos := fun e he => by cases he
  hold := fun a => by simp [State.init, holder]
  last := ⟨[], _, rfl, by simp [State.init], by simp [holder], fun a ha => by simp [holder] at ha, fun _ i hi => by simp [State.init] at hi⟩
  adj := fun m hm _ => by simp [State.init] at hm ⊢; exact hm.symm
  ok := fun pre e post h => by cases pre <;> cases h

theorem Exec.inv (hacq : o.casOk.acq = true) (hrel : o.unlock.rel = true) (h : Exec o d tr s) : Inv d tr s := by
  induction h with
  | init => exact Inv.init d
  | step _ hs ih => exact ih.step hacq hrel hs

end Thingbuf.SpinRA
