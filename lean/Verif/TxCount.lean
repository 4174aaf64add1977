/-
The sender count: `Clone` and `Drop` of the senders, `Receiver::is_closed`: C36, C40.

* async `Sender`: /repo/src/mpsc/async_impl.rs lines 262-282, 581-583; `StaticSender`: 947-969, 1286-1288
* blocking `Sender`: /repo/src/mpsc/blocking.rs lines 1236-1257, 1561; `StaticSender`: 534-557, 875
-/
namespace Thingbuf.Tx

/-- Which implementation: they differ in what happens after `core.close()`. /repo/src/mpsc/async_impl.rs lines
271-282, /repo/src/mpsc/blocking.rs lines 1245-1257. -/
inductive Flavour where
  | async
  | blocking
deriving DecidableEq, Repr

/-- A sender handle. /repo/src/mpsc/async_impl.rs lines 262-282, /repo/src/mpsc/blocking.rs lines 1236-1257. -/
inductive H where
  /-- does not exist yet -/
  | fresh
  | alive
  /-- in `drop`, after the `fetch_sub` that returned 1, before `core.close()` -/
  | closing
  /-- in `drop`, before `rx_wait.close_tx()` -/
  | waking
  | gone
deriving DecidableEq, Repr

/-- `tx_count` (a word of `w` bits) and the handles. /repo/src/mpsc.rs lines 261-266. -/
structure State (w : Nat) where
  count : BitVec w
  h : Nat → H

/-- `ChannelCore::new` (/repo/src/mpsc.rs lines 317-324): `tx_count` is 1, and there is one sender. -/
def State.init (w : Nat) : State w := ⟨1#w, fun a => if a = 0 then .alive else .fresh⟩

/-- Scaffolding of the model, no counterpart in the source. -/
def setH {w : Nat} (s : State w) (a : Nat) (x : H) : State w := { s with h := fun b => if b = a then x else s.h b }

/-- Observable events. /repo/src/mpsc/async_impl.rs lines 262-282, /repo/src/mpsc/blocking.rs lines 1236-1257. -/
inductive Event where
  /-- sender `b` was made by cloning -/
  | clone (b : Nat)
  /-- sender `a` stops being alive: its `drop` has decremented the count -/
  | drop (a : Nat)
  /-- the drop of `a` closed the queue -/
  | closeQueue (a : Nat)
  /-- the drop of `a` found its thread unwinding and did not close the queue -/
  | skipClose (a : Nat)
  /-- the drop of `a` closed the receiver's wait cell (and so wakes the receiver) -/
  | closeCell (a : Nat)
deriving DecidableEq, Repr

/-- /repo/src/mpsc/async_impl.rs lines 262-282, /repo/src/mpsc/blocking.rs lines 1236-1257. -/
inductive Act where
  /-- the living sender `a` is cloned, giving `b` -/
  | clone (a b : Nat)
  /-- `fetch_sub` in the drop of `a` -/
  | dec (a : Nat)
  /-- `core.close()`; `panicking`: the thread is unwinding; `first`: the queue was not closed before
  (the receiver may have closed it) -/
  | close (a : Nat) (panicking first : Bool)
  /-- `rx_wait.close_tx()` -/
  | wake (a : Nat)
deriving DecidableEq, Repr

/-- The machine.  `Core::close` (/repo/src/lib.rs lines 168-174) does nothing while panicking. -/
def step {w : Nat} (f : Flavour) (s : State w) : Act → Option (State w × List Event)
  | .clone a b =>
    if s.h a = .alive ∧ s.h b = .fresh then
      some ({ setH s b .alive with count := s.count + 1#w }, [.clone b])
    else none
  | .dec a =>
    if s.h a = .alive then
      let s' := { s with count := s.count - 1#w }
      if s.count > 1#w then some (setH s' a .gone, [.drop a]) else some (setH s' a .closing, [.drop a])
    else none
  | .close a panicking first =>
    if s.h a = .closing then
      match f with
      | .async => some (setH s a .waking, if panicking then [.skipClose a] else [.closeQueue a])
      | .blocking =>
        if panicking then some (setH s a .gone, [.skipClose a])
        else if first then some (setH s a .waking, [.closeQueue a])
        else some (setH s a .gone, [.closeQueue a])
    else none
  | .wake a => if s.h a = .waking then some (setH s a .gone, [.closeCell a]) else none

/-- Scaffolding of the model, no counterpart in the source: the interleavings of the functions cited at `Act`. -/
inductive Exec (w : Nat) (f : Flavour) : List Event → State w → Prop where
  | init : Exec w f [] (State.init w)
  | step {tr s s' act evs} : Exec w f tr s → step f s act = some (s', evs) → Exec w f (tr ++ evs) s'

/-- Scaffolding of the model, no counterpart in the source. -/
def isClone : Event → Bool | .clone _ => true | _ => false
/-- Scaffolding of the model, no counterpart in the source. -/
def isDrop : Event → Bool | .drop _ => true | _ => false
/-- Scaffolding of the model, no counterpart in the source. -/
def isCloseQueue : Event → Bool | .closeQueue _ => true | _ => false
/-- Scaffolding of the model, no counterpart in the source. -/
def isCloseCell : Event → Bool | .closeCell _ => true | _ => false
/-- Scaffolding of the model, no counterpart in the source. -/
def isSkip : Event → Bool | .skipClose _ => true | _ => false

/-- Specification: the number of living senders after a history. Scaffolding of the model, no counterpart in the
source. -/
def alive (tr : List Event) : Int := 1 + tr.countP isClone - tr.countP isDrop

/-- The number of senders never reached the range of the counter (`usize`). An assumption about the number of
`Sender`s. Scaffolding of the model, no counterpart in the source. -/
def NoOverflow (w : Nat) (tr : List Event) : Prop := ∀ pre, pre <+: tr → alive pre < (2 ^ w : Nat)

/-- `Receiver::is_closed` (async_impl.rs lines 581-583, blocking.rs lines 1561-1563), as written. -/
def isClosed {w : Nat} (s : State w) : Bool := s.count ≤ 1#w

/-! ### Invariant -/

/-- Where the senders' side is on its way to being closed. Part of the invariant. Scaffolding of the model, no
counterpart in the source. -/
inductive Phase (f : Flavour) {w : Nat} (tr : List Event) (s : State w) (L : List Nat) : Prop where
  | running (hL : L ≠ []) (hn : ∀ a, s.h a ≠ .closing ∧ s.h a ≠ .waking)
      (hq : tr.countP isCloseQueue = 0) (hc : tr.countP isCloseCell = 0) (hk : tr.countP isSkip = 0)
  | closing (a : Nat) (hL : L = []) (ha : s.h a = .closing) (hn : ∀ b, b ≠ a → s.h b ≠ .closing ∧ s.h b ≠ .waking)
      (hq : tr.countP isCloseQueue = 0) (hc : tr.countP isCloseCell = 0) (hk : tr.countP isSkip = 0)
  | waking (a : Nat) (hL : L = []) (ha : s.h a = .waking) (hn : ∀ b, b ≠ a → s.h b ≠ .closing ∧ s.h b ≠ .waking)
      (hq : tr.countP isCloseQueue + tr.countP isSkip = 1) (hc : tr.countP isCloseCell = 0)
  | closed (hL : L = []) (hn : ∀ a, s.h a ≠ .closing ∧ s.h a ≠ .waking)
      (hq : tr.countP isCloseQueue + tr.countP isSkip = 1) (hc : tr.countP isCloseCell ≤ 1)
      (hcc : f = .async → tr.countP isCloseCell = 1)

/-- The invariant. Scaffolding of the model, no counterpart in the source. -/
structure Inv (f : Flavour) {w : Nat} (tr : List Event) (s : State w) (L : List Nat) : Prop where
  mem : ∀ a, a ∈ L ↔ s.h a = .alive
  nodup : L.Nodup
  len : (L.length : Int) = alive tr
  count : s.count = BitVec.ofNat w L.length
  drops : ∀ a, .drop a ∈ tr ↔ (s.h a = .closing ∨ s.h a = .waking ∨ s.h a = .gone)
  phase : Phase f tr s L

theorem alive_append (t u : List Event) : alive (t ++ u) = alive t + u.countP isClone - u.countP isDrop := by
  simp only [alive, List.countP_append]; omega

theorem Inv.step {f : Flavour} {w : Nat} {tr : List Event} {s s' : State w} {L : List Nat} {act : Act}
    {evs : List Event} (hw : 2 ≤ w) (h : Inv f tr s L) (hov0 : alive tr < (2 ^ w : Nat))
    (hs : step f s act = some (s', evs)) : ∃ L', Inv f (tr ++ evs) s' L' := by
  have h4 : 4 ≤ 2 ^ w := Nat.pow_le_pow_right (n := 2) (by omega) hw
  have hlt : L.length < 2 ^ w := by have := h.len; omega
  cases act with
  | clone a b =>
    simp only [Tx.step] at hs
    split at hs
    · rename_i hp
      obtain ⟨ha, hb⟩ := hp
      cases hs
      have hbL : b ∉ L := fun hm => by rw [(h.mem b).1 hm] at hb; cases hb
      refine ⟨b :: L, ?_, List.nodup_cons.2 ⟨hbL, h.nodup⟩, ?_, ?_, ?_, ?_⟩
      · intro c
        simp only [List.mem_cons, setH]
        by_cases hc : c = b
        · simp [hc]
        · simp [hc, h.mem c]
      · rw [alive_append, ← h.len]; simp [isClone, isDrop]
      · simp only [List.length_cons, h.count]
        rw [BitVec.ofNat_add]
      · intro c
        simp only [List.mem_append, setH, h.drops c]
        by_cases hc : c = b
        · subst hc; simp [hb]
        · simp [hc]
      · have hne : L ≠ [] := List.ne_nil_of_mem ((h.mem a).2 ha)
        rcases h.phase with ⟨hL, hn, hq, hc, hk⟩ | ⟨c, hL, hc, _⟩ | ⟨c, hL, hc, _⟩ | ⟨hL, _⟩
        · refine .running (by simp) (fun c => ?_) ?_ ?_ ?_
          · simp only [setH]; split
            · simp
            · exact hn c
          · simpa [List.countP_append, isCloseQueue] using hq
          · simpa [List.countP_append, isCloseCell] using hc
          · simpa [List.countP_append, isSkip] using hk
        all_goals exact absurd hL hne
    · cases hs
  | dec a =>
    simp only [Tx.step] at hs
    split at hs
    · rename_i ha
      have haL := (h.mem a).2 ha
      have hne : L ≠ [] := List.ne_nil_of_mem haL
      have hpos : 0 < L.length := List.length_pos_iff.2 hne
      have hcnt : s.count - 1#w = BitVec.ofNat w (L.erase a).length := by
        rw [h.count, List.length_erase_of_mem haL]
        apply BitVec.eq_of_toNat_eq
        simp only [BitVec.toNat_sub, BitVec.toNat_ofNat]
        rw [Nat.mod_eq_of_lt hlt, Nat.mod_eq_of_lt (a := 1) (by omega),
          show 2 ^ w - 1 + L.length = (L.length - 1) + 2 ^ w by omega, Nat.add_mod_right,
          Nat.mod_eq_of_lt (by omega)]
      have hgt : s.count > 1#w ↔ 1 < L.length := by
        rw [h.count]
        show BitVec.toNat _ < BitVec.toNat _ ↔ _
        simp only [BitVec.toNat_ofNat]
        rw [Nat.mod_eq_of_lt hlt, Nat.mod_eq_of_lt (by omega)]
      have common : ∀ (x : H), x ≠ .alive → x ≠ .fresh → (s'.h = fun b => if b = a then x else s.h b) →
          s'.count = s.count - 1#w → evs = [.drop a] →
          (∀ c, c ∈ L.erase a ↔ s'.h c = .alive) ∧ (L.erase a).Nodup ∧
          ((L.erase a).length : Int) = alive (tr ++ evs) ∧ s'.count = BitVec.ofNat w (L.erase a).length ∧
          ∀ c, .drop c ∈ tr ++ evs ↔ (s'.h c = .closing ∨ s'.h c = .waking ∨ s'.h c = .gone) := by
        intro x hx hx' h1 h2 h3
        subst h3
        refine ⟨fun c => ?_, h.nodup.erase _, ?_, by rw [h2, hcnt], fun c => ?_⟩
        · rw [List.Nodup.mem_erase_iff h.nodup, h.mem c, h1]
          by_cases hc : c = a
          · simp [hc, hx]
          · simp [hc]
        · rw [alive_append, ← h.len, List.length_erase_of_mem haL]; simp [isClone, isDrop]; omega
        · rw [List.mem_append, h.drops c, h1]
          by_cases hc : c = a
          · subst hc; simp; cases x <;> simp_all
          · simp [hc]
      rcases h.phase with ⟨hL, hn, hq, hc, hk⟩ | ⟨c, hL, hc, _⟩ | ⟨c, hL, hc, _⟩ | ⟨hL, _⟩
      · split at hs
        · rename_i hg
          cases hs
          obtain ⟨g1, g2, g3, g4, g5⟩ := common .gone (by simp) (by simp) rfl rfl rfl
          refine ⟨_, g1, g2, g3, g4, g5, .running ?_ (fun c => ?_) ?_ ?_ ?_⟩
          · have := hgt.1 hg
            intro he
            have := List.length_erase_of_mem haL
            rw [he] at this; simp at this; omega
          · simp only [setH]; split
            · simp
            · exact hn c
          · simpa [List.countP_append, isCloseQueue] using hq
          · simpa [List.countP_append, isCloseCell] using hc
          · simpa [List.countP_append, isSkip] using hk
        · rename_i hg
          cases hs
          obtain ⟨g1, g2, g3, g4, g5⟩ := common .closing (by simp) (by simp) rfl rfl rfl
          refine ⟨_, g1, g2, g3, g4, g5, .closing a ?_ (by simp [setH]) (fun c hc => ?_) ?_ ?_ ?_⟩
          · have h1 : ¬ 1 < L.length := fun hh => hg (hgt.2 hh)
            have := List.length_erase_of_mem haL
            exact List.eq_nil_of_length_eq_zero (by omega)
          · simp only [setH, hc, if_false]; exact hn c
          · simpa [List.countP_append, isCloseQueue] using hq
          · simpa [List.countP_append, isCloseCell] using hc
          · simpa [List.countP_append, isSkip] using hk
      all_goals exact absurd hL hne
    · cases hs
  | close a panicking first =>
    simp only [Tx.step] at hs
    split at hs
    · rename_i ha
      rcases h.phase with ⟨hL, hn, _⟩ | ⟨c, hL, hc, hn, hq, hcc, hk⟩ | ⟨c, hL, hc, hn, _⟩ | ⟨hL, hn, _⟩
      · exact absurd ha (hn a).1
      · have hca : c = a := Classical.byContradiction fun hne => (hn a (Ne.symm hne)).1 ha
        subst hca
        have common : ∀ (x : H), x = .waking ∨ x = .gone → (s'.h = fun b => if b = c then x else s.h b) →
            s'.count = s.count → evs.countP isClone = 0 → evs.countP isDrop = 0 → (∀ b, .drop b ∉ evs) →
            (∀ b, b ∈ L ↔ s'.h b = .alive) ∧ L.Nodup ∧ (L.length : Int) = alive (tr ++ evs) ∧
            s'.count = BitVec.ofNat w L.length ∧
            ∀ b, .drop b ∈ tr ++ evs ↔ (s'.h b = .closing ∨ s'.h b = .waking ∨ s'.h b = .gone) := by
          intro x hx h1 h2 h3 h4 h5
          refine ⟨fun b => ?_, h.nodup, ?_, by rw [h2, h.count], fun b => ?_⟩
          · rw [h1, h.mem b]
            by_cases hb : b = c
            · subst hb; rcases hx with rfl | rfl <;> simp [ha]
            · simp [hb]
          · rw [alive_append, h3, h4, h.len]; omega
          · rw [List.mem_append, h1, h.drops b]
            by_cases hb : b = c
            · subst hb; rcases hx with rfl | rfl <;> simp [ha]
            · simp [hb, h5]
        have hnb : ∀ (x : H), ∀ b, b ≠ c → (fun b => if b = c then x else s.h b) b ≠ .closing ∧
            (fun b => if b = c then x else s.h b) b ≠ .waking := by
          intro x b hb; simp only [hb, if_false]; exact hn b hb
        have hng : ∀ b, (fun b => if b = c then H.gone else s.h b) b ≠ .closing ∧
            (fun b => if b = c then H.gone else s.h b) b ≠ .waking := by
          intro b
          by_cases hb : b = c
          · simp [hb]
          · exact hnb _ b hb
        cases f with
        | async =>
          simp only [Option.some.injEq, Prod.mk.injEq] at hs
          obtain ⟨rfl, rfl⟩ := hs
          obtain ⟨g1, g2, g3, g4, g5⟩ := common .waking (.inl rfl) rfl rfl
            (by cases panicking <;> simp [isClone]) (by cases panicking <;> simp [isDrop])
            (by cases panicking <;> simp)
          refine ⟨L, g1, g2, g3, g4, g5, .waking c hL (by simp [setH]) (hnb _) ?_ ?_⟩
          · cases panicking <;> simp [List.countP_append, isCloseQueue, isSkip, hq, hk]
          · cases panicking <;> simp [List.countP_append, isCloseCell, hcc]
        | blocking =>
          simp only at hs
          split at hs
          · cases hs
            obtain ⟨g1, g2, g3, g4, g5⟩ := common .gone (.inr rfl) rfl rfl (by simp [isClone]) (by simp [isDrop])
              (by simp)
            refine ⟨L, g1, g2, g3, g4, g5, .closed hL hng ?_ ?_ (by simp)⟩
            · simp [List.countP_append, isCloseQueue, isSkip, hq, hk]
            · simp [List.countP_append, isCloseCell, hcc]
          · split at hs
            · cases hs
              obtain ⟨g1, g2, g3, g4, g5⟩ := common .waking (.inl rfl) rfl rfl (by simp [isClone]) (by simp [isDrop])
                (by simp)
              refine ⟨L, g1, g2, g3, g4, g5, .waking c hL (by simp [setH]) (hnb _) ?_ ?_⟩
              · simp [List.countP_append, isCloseQueue, isSkip, hq, hk]
              · simp [List.countP_append, isCloseCell, hcc]
            · cases hs
              obtain ⟨g1, g2, g3, g4, g5⟩ := common .gone (.inr rfl) rfl rfl (by simp [isClone]) (by simp [isDrop])
                (by simp)
              refine ⟨L, g1, g2, g3, g4, g5, .closed hL hng ?_ ?_ (by simp)⟩
              · simp [List.countP_append, isCloseQueue, isSkip, hq, hk]
              · simp [List.countP_append, isCloseCell, hcc]
      · by_cases hac : a = c
        · subst hac; rw [ha] at hc; cases hc
        · exact absurd ha (hn a hac).1
      · exact absurd ha (hn a).1
    · cases hs
  | wake a =>
    simp only [Tx.step] at hs
    split at hs
    · rename_i ha
      cases hs
      rcases h.phase with ⟨hL, hn, _⟩ | ⟨c, hL, hc, hn, _⟩ | ⟨c, hL, hc, hn, hq, hcc⟩ | ⟨hL, hn, _⟩
      · exact absurd ha (hn a).2
      · by_cases hac : a = c
        · subst hac; rw [ha] at hc; cases hc
        · exact absurd ha (hn a hac).2
      · have hca : c = a := Classical.byContradiction fun hne => (hn a (Ne.symm hne)).2 ha
        subst hca
        refine ⟨L, fun b => ?_, h.nodup, ?_, h.count, fun b => ?_, .closed hL (fun b => ?_) ?_ ?_ ?_⟩
        · rw [h.mem b]; simp only [setH]
          by_cases hb : b = c
          · subst hb; simp [ha]
          · simp [hb]
        · rw [alive_append, ← h.len]; simp [isClone, isDrop]
        · simp only [List.mem_append, h.drops b, setH]
          by_cases hb : b = c
          · subst hb; simp [ha]
          · simp [hb]
        · simp only [setH]
          by_cases hb : b = c
          · simp [hb]
          · simp only [hb, if_false]; exact hn b hb
        · simpa [List.countP_append, isCloseQueue, isSkip] using hq
        · simp [List.countP_append, isCloseCell, hcc]
        · intro _; simp [List.countP_append, isCloseCell, hcc]
      · exact absurd ha (hn a).2
    · cases hs

theorem Exec.inv {f : Flavour} {w : Nat} {tr : List Event} {s : State w} (hw : 2 ≤ w) (h : Exec w f tr s)
    (hov : NoOverflow w tr) : ∃ L, Inv f tr s L := by
  induction h with
  | init =>
    refine ⟨[0], ?_, by simp, by simp [alive], rfl, ?_, .running (by simp) ?_ rfl rfl rfl⟩
    · intro a; simp only [State.init, List.mem_singleton]
      by_cases h : a = 0 <;> simp [h]
    · intro a; simp only [State.init]
      by_cases h : a = 0 <;> simp [h]
    · intro a; simp only [State.init]
      by_cases h : a = 0 <;> simp [h]
  | @step tr s s' act evs _ hs ih =>
    obtain ⟨L, hL⟩ := ih fun pre hp => hov pre (hp.trans (List.prefix_append _ _))
    exact hL.step hw (hov _ (List.prefix_append _ _)) hs

/-! ### Properties -/

/-- **C40** Never before: if the drop of `a` closes the queue, skips closing it because the thread is
unwinding, or closes the receiver's cell, then no sender is alive at that time (nor ever again). At
most one drop does so. -/
theorem C40_close_at_last_drop {f : Flavour} {w : Nat} {tr : List Event} {s : State w} (hw : 2 ≤ w)
    (h : Exec w f tr s) (hov : NoOverflow w tr) :
    ((∃ a, .closeQueue a ∈ tr ∨ .closeCell a ∈ tr ∨ .skipClose a ∈ tr) → alive tr = 0 ∧ ∀ a, s.h a ≠ .alive) ∧
    tr.countP isCloseQueue + tr.countP isSkip ≤ 1 ∧ tr.countP isCloseCell ≤ 1 := by
  obtain ⟨L, hL⟩ := h.inv hw hov
  have hdead : L = [] → alive tr = 0 ∧ ∀ a, s.h a ≠ .alive := by
    rintro rfl
    exact ⟨by have := hL.len; simpa using this.symm, fun a ha => by simpa using (hL.mem a).2 ha⟩
  rcases hL.phase with ⟨hne, hn, hq, hc, hk⟩ | ⟨c, hnil, hc, hn, hq, hcc, hk⟩ | ⟨c, hnil, hc, hn, hq, hcc⟩ |
    ⟨hnil, hn, hq, hc, _⟩
  · refine ⟨?_, by omega, by omega⟩
    rintro ⟨a, ha | ha | ha⟩
    · exact absurd (List.countP_eq_zero.1 hq _ ha) (by simp [isCloseQueue])
    · exact absurd (List.countP_eq_zero.1 hc _ ha) (by simp [isCloseCell])
    · exact absurd (List.countP_eq_zero.1 hk _ ha) (by simp [isSkip])
  · exact ⟨fun _ => hdead hnil, by omega, by omega⟩
  · exact ⟨fun _ => hdead hnil, by omega, by omega⟩
  · exact ⟨fun _ => hdead hnil, by omega, by omega⟩

/-- **C40**, the part of "exactly when" that holds: once no sender is alive and no drop is in progress,
the last drop has closed the queue, unless its thread was unwinding; in the async implementation the
receiver's cell has been closed in any case.  Missing: closing by an unwinding thread, see
`C40_panicking_drop_never_closes`. -/
theorem C40_closed_after_last_drop_partial {f : Flavour} {w : Nat} {tr : List Event} {s : State w} (hw : 2 ≤ w)
    (h : Exec w f tr s) (hov : NoOverflow w tr) (h0 : alive tr = 0)
    (hidle : ∀ a, s.h a ≠ .closing ∧ s.h a ≠ .waking) :
    ((∃ a, .closeQueue a ∈ tr) ∨ ∃ a, .skipClose a ∈ tr) ∧
    (f = .async → ∃ a, .closeCell a ∈ tr) := by
  obtain ⟨L, hL⟩ := h.inv hw hov
  have hlen := hL.len
  rcases hL.phase with ⟨hne, _⟩ | ⟨c, _, hc, _⟩ | ⟨c, _, hc, _⟩ | ⟨_, _, hq, _, hcc⟩
  · exact absurd (List.length_pos_iff.2 hne) (by omega)
  · exact absurd hc (hidle c).1
  · exact absurd hc (hidle c).2
  · constructor
    · by_cases hk : tr.countP isSkip = 0
      · left
        obtain ⟨e, he, h1⟩ := List.countP_pos_iff.1 (show 0 < tr.countP isCloseQueue by omega)
        cases e <;> simp [isCloseQueue] at h1
        exact ⟨_, he⟩
      · right
        obtain ⟨e, he, h1⟩ := List.countP_pos_iff.1 (show 0 < tr.countP isSkip by omega)
        cases e <;> simp [isSkip] at h1
        exact ⟨_, he⟩
    · intro hf
      have := hcc hf
      obtain ⟨e, he, h1⟩ := List.countP_pos_iff.1 (show 0 < tr.countP isCloseCell by omega)
      cases e <;> simp [isCloseCell] at h1
      exact ⟨_, he⟩

/-- Run a list of actions (for concrete cases). Scaffolding of the model, no counterpart in the source. -/
def runActs {w : Nat} (f : Flavour) : State w → List Act → Option (State w × List Event)
  | s, [] => some (s, [])
  | s, act :: acts => match step f s act with
    | none => none
    | some (s1, e1) => match runActs f s1 acts with
      | none => none
      | some (s2, e2) => some (s2, e1 ++ e2)

theorem Exec.of_runActs {f : Flavour} {w : Nat} {tr evs : List Event} {s s' : State w} {acts : List Act}
    (he : Exec w f tr s) (h : runActs f s acts = some (s', evs)) : Exec w f (tr ++ evs) s' := by
  induction acts generalizing tr s evs with
  | nil => simp only [runActs, Option.some.injEq, Prod.mk.injEq] at h; obtain ⟨rfl, rfl⟩ := h; simpa using he
  | cons act acts ih =>
    simp only [runActs] at h
    split at h
    · cases h
    · rename_i s1 e1 h1
      split at h
      · cases h
      · rename_i s2 e2 h2
        simp only [Option.some.injEq, Prod.mk.injEq] at h
        obtain ⟨rfl, rfl⟩ := h
        rw [← List.append_assoc]
        exact ih (he.step h1) h2

/-- Three senders dropped in some order; the second clone is made from the first. -/
example : (runActs .blocking (State.init 8) [.clone 0 1, .clone 1 2, .dec 0, .dec 2, .dec 1, .close 1 false true,
    .wake 1]).map Prod.snd =
    some [.clone 1, .clone 2, .drop 0, .drop 2, .drop 1, .closeQueue 1, .closeCell 1] := by decide

/-- **C40** is violated when the last sender of a blocking channel is dropped by an unwinding thread:
no sender is alive, no drop is in progress, and neither the queue nor the cell was closed. -/
theorem C40_panicking_drop_never_closes : ∃ (tr : List Event) (s : State 8), Exec 8 .blocking tr s ∧
    NoOverflow 8 tr ∧ alive tr = 0 ∧ (∀ a, s.h a = .fresh ∨ s.h a = .gone) ∧
    (∀ a, .closeQueue a ∉ tr) ∧ (∀ a, .closeCell a ∉ tr) := by
  have hr : runActs .blocking (State.init 8) [.dec 0, .close 0 true true] =
      some (setH (setH { State.init 8 with count := (State.init 8).count - 1#8 } 0 .closing) 0 .gone,
        [.drop 0, .skipClose 0]) := rfl
  refine ⟨_, _, by simpa using Exec.init.of_runActs hr, ?_, by decide, ?_, by simp, by simp⟩
  · intro pre hp
    have hle : pre.length ≤ 2 := by simpa using hp.length_le
    have h1 := List.countP_le_length (p := isClone) (l := pre)
    simp only [alive]; omega
  · intro a
    simp only [setH, State.init]
    by_cases h : a = 0 <;> simp [h]

/-- **C36**, what holds: `is_closed()` is true exactly if at most one sender is alive.  So it is true when
all are gone, and false when two or more are alive.  Missing: one living sender, see
`C36_is_closed_wrong`. -/
theorem C36_is_closed_partial {f : Flavour} {w : Nat} {tr : List Event} {s : State w} (hw : 2 ≤ w)
    (h : Exec w f tr s) (hov : NoOverflow w tr) : isClosed s = true ↔ alive tr ≤ 1 := by
  obtain ⟨L, hL⟩ := h.inv hw hov
  have h4 : 4 ≤ 2 ^ w := Nat.pow_le_pow_right (n := 2) (by omega) hw
  have hlen := hL.len
  have hlt : L.length < 2 ^ w := by have := hov _ (List.prefix_refl _); omega
  simp only [isClosed, decide_eq_true_eq, hL.count]
  rw [BitVec.le_def, BitVec.toNat_ofNat, BitVec.toNat_ofNat, Nat.mod_eq_of_lt hlt, Nat.mod_eq_of_lt (by omega)]
  omega

/-- **C36** is violated: with exactly one living sender `is_closed()` returns true, always. -/
theorem C36_is_closed_wrong {f : Flavour} {w : Nat} {tr : List Event} {s : State w} (hw : 2 ≤ w)
    (h : Exec w f tr s) (hov : NoOverflow w tr) (h1 : alive tr = 1) :
    isClosed s = true ∧ ∃ a, s.h a = .alive := by
  refine ⟨(C36_is_closed_partial hw h hov).2 (by omega), ?_⟩
  obtain ⟨L, hL⟩ := h.inv hw hov
  have hlen := hL.len
  cases L with
  | nil => simp at hlen; omega
  | cons a L => exact ⟨a, (hL.mem a).1 (by simp)⟩

/-- A new channel is an example. -/
example : Exec 8 .async [] (State.init 8) ∧ NoOverflow 8 [] ∧ alive [] = 1 ∧ isClosed (State.init 8) = true := by
  refine ⟨.init, ?_, rfl, by decide⟩
  intro pre hp; rw [List.prefix_nil.1 hp]; decide

end Thingbuf.Tx
