import Verif.ChanSeq
/-!
# Sequential use of the channel: facts about the specification
-/

namespace Thingbuf.Chan

variable {V W : Type} {cap : Nat} {same : W → W → Bool} {σ σ' : Spec V W} {call : Call V W} {o : List (Obs V W)}
  {calls : List (Call V W)} {os : List (List (Obs V W))}

/-! ## Vocabulary of the properties -/

/-- The message that the call tries to send. -/
def Call.value : Call V W → Option V
  | .trySend _ v | .send _ v _ | .pollSend _ v _ => some v
  | _ => none

def Obs.isSent : Obs V W → Bool
  | .sent => true
  | _ => false

def Obs.taken : Obs V W → Option V
  | .got x => x
  | _ => none

/-- The messages that were sent, in the order of the calls that succeeded. -/
def sentOf : List (Call V W) → List (List (Obs V W)) → List V
  | call :: calls, o :: os => (if o.any Obs.isSent then call.value.toList else []) ++ sentOf calls os
  | _, _ => []

/-- The messages that were received, in order. -/
def gotOf (os : List (List (Obs V W))) : List V := os.flatten.filterMap Obs.taken

/-- The drop of a pending send future. -/
def Call.isCancel : Call V W → Bool
  | .cancel _ => true
  | _ => false

/-- The pending send futures that were woken and have not been polled since. -/
def Spec.woken (σ : Spec V W) : List (Nat × Nat) := σ.futs.filter fun x => x.1 ∉ σ.waiting.map Prod.fst

/-! ## One call -/

theorem Spec.put_any (σ : Spec V W) (v : V) : (σ.put v).2.any Obs.isSent = true := by simp [Spec.put, Obs.isSent]

theorem woke_taken {α : Type} (l : List α) (f : α → W) : (l.map fun x => (Obs.woke (f x) : Obs V W)).filterMap Obs.taken = [] := by
  rw [List.filterMap_map, List.filterMap_eq_nil_iff]
  intro a _
  rfl

theorem woke_sent {α : Type} (l : List α) (f : α → W) : (l.map fun x => (Obs.woke (f x) : Obs V W)).any Obs.isSent = false := by
  rw [List.any_eq_false]
  intro x hx
  obtain ⟨y, _, rfl⟩ := List.mem_map.1 hx
  simp [Obs.isSent]

theorem woke_sent' (l : List W) : (l.map Obs.woke : List (Obs V W)).any Obs.isSent = false := woke_sent l id
theorem woke_taken' (l : List W) : (l.map Obs.woke : List (Obs V W)).filterMap Obs.taken = [] := woke_taken l id

theorem Spec.put_taken (σ : Spec V W) (v : V) : (σ.put v).2.filterMap Obs.taken = [] := by
  simp only [Spec.put, List.filterMap_cons, Obs.taken]
  exact woke_taken' _

/-- What a call adds to the messages sent and received, and to those in the channel. -/
def Balance (σ : Spec V W) (call : Call V W) (r : Spec V W × List (Obs V W)) : Prop :=
  σ.msgs ++ (if r.2.any Obs.isSent then call.value.toList else []) = r.2.filterMap Obs.taken ++ r.1.msgs

theorem Spec.attempt_balance (k : Nat) {v : V} {u : W} (hv : call.value = some v) : Balance σ call (σ.attempt cap k v u) := by
  unfold Balance Spec.attempt
  split
  · simp [Obs.isSent, Obs.taken, Spec.resolved]
  · split
    · rw [Spec.put_any, Spec.put_taken, hv]
      simp [Spec.put, Spec.resolved]
    · simp [Obs.isSent, Obs.taken]

theorem Spec.freed_balance (x : V) (l : List V) (hm : σ.msgs = x :: l) (hv : call.value = none) :
    Balance σ call (({ σ with msgs := l } : Spec V W).freed.1, .got (some x) :: ({ σ with msgs := l } : Spec V W).freed.2) := by
  unfold Balance Spec.freed
  rw [hm, hv]
  split <;> simp [Obs.isSent, Obs.taken]

/-- The cases of `Spec.step`. -/
inductive Move (cap : Nat) (same : W → W → Bool) (σ : Spec V W) : Call V W → Spec V W → List (Obs V W) → Prop where
  | clone {m : Nat} : m ∈ σ.senders → Move cap same σ (.clone m) { σ with senders := σ.next :: σ.senders, next := σ.next + 1 } []
  | dropTx {m : Nat} : m ∈ σ.senders → (∀ x ∈ σ.futs, x.2 ≠ m) → σ.senders.erase m ≠ [] →
      Move cap same σ (.dropTx m) { σ with senders := σ.senders.erase m } []
  | dropLast {m : Nat} : m ∈ σ.senders → (∀ x ∈ σ.futs, x.2 ≠ m) → σ.senders.erase m = [] →
      Move cap same σ (.dropTx m) { σ with senders := σ.senders.erase m, closed := true, rxWaker := none } (σ.rxWaker.toList.map .woke)
  | tryClosed {m : Nat} {v : V} : m ∈ σ.senders → σ.closed = true → Move cap same σ (.trySend m v) { σ with next := σ.next + 1 } [.closed]
  | tryPut {m : Nat} {v : V} : m ∈ σ.senders → σ.closed = false → σ.msgs.length < cap →
      Move cap same σ (.trySend m v) (({ σ with next := σ.next + 1 } : Spec V W).put v).1 (({ σ with next := σ.next + 1 } : Spec V W).put v).2
  | tryFull {m : Nat} {v : V} : m ∈ σ.senders → σ.closed = false → ¬ σ.msgs.length < cap →
      Move cap same σ (.trySend m v) { σ with next := σ.next + 1 } [.full]
  | send {m : Nat} {v : V} {u : W} : m ∈ σ.senders → Move cap same σ (.send m v u)
      (({ σ with next := σ.next + 1, futs := (σ.next, m) :: σ.futs } : Spec V W).attempt cap σ.next v u).1
      (({ σ with next := σ.next + 1, futs := (σ.next, m) :: σ.futs } : Spec V W).attempt cap σ.next v u).2
  | still {k : Nat} {v : V} {u : W} : k ∈ σ.futs.map Prod.fst → k ∈ σ.waiting.map Prod.fst →
      Move cap same σ (.pollSend k v u) { σ with waiting := rewake same k u σ.waiting } [.pending]
  | again {k : Nat} {v : V} {u : W} : k ∈ σ.futs.map Prod.fst → k ∉ σ.waiting.map Prod.fst →
      Move cap same σ (.pollSend k v u) (σ.attempt cap k v u).1 (σ.attempt cap k v u).2
  | cancel {k : Nat} : k ∈ σ.futs.map Prod.fst →
      Move cap same σ (.cancel k) { σ.resolved k with waiting := σ.waiting.filter fun x => x.1 ≠ k } []
  | tryGot {x : V} {l : List V} : σ.rx = true → σ.msgs = x :: l →
      Move cap same σ .tryRecv ({ σ with msgs := l } : Spec V W).freed.1 (.got (some x) :: ({ σ with msgs := l } : Spec V W).freed.2)
  | tryNone : σ.rx = true → σ.msgs = [] → Move cap same σ .tryRecv σ [if σ.closed then .ended else .empty]
  | got {x : V} {l : List V} {u : W} : σ.rx = true → σ.msgs = x :: l →
      Move cap same σ (.recv u) ({ σ with msgs := l } : Spec V W).freed.1 (.got (some x) :: ({ σ with msgs := l } : Spec V W).freed.2)
  | ended {u : W} : σ.rx = true → σ.msgs = [] → σ.closed = true → Move cap same σ (.recv u) σ [.ended]
  | pending {u : W} : σ.rx = true → σ.msgs = [] → σ.closed = false → Move cap same σ (.recv u) { σ with rxWaker := some u } [.pending]
  | dropRx : σ.rx = true → Move cap same σ .dropRx { σ with rx := false, closed := true, stored := false, waiting := [] }
      (σ.waiting.map fun x => .woke x.2)

theorem Spec.step_move (h : σ.step cap same call = some (σ', o)) : Move cap same σ call σ' o := by
  have guard : ∀ {P : Prop} [Decidable P] {x : Option (Spec V W × List (Obs V W))}, (if P then x else none) = some (σ', o) →
      P ∧ x = some (σ', o) := by
    intro P _ x hx
    split at hx
    · exact ⟨‹P›, hx⟩
    · cases hx
  cases call with
  | clone m =>
    obtain ⟨h1, h⟩ := guard h
    cases h
    exact .clone h1
  | dropTx m =>
    obtain ⟨⟨h1, h2⟩, h⟩ := guard h
    dsimp only at h
    split at h
    · cases h
      exact .dropLast h1 h2 ‹_›
    · cases h
      exact .dropTx h1 h2 ‹_›
  | trySend m v =>
    obtain ⟨h1, h⟩ := guard h
    cases hc : σ.closed with
    | true =>
      simp only [hc, if_true, Option.some.injEq, Prod.mk.injEq] at h
      obtain ⟨rfl, rfl⟩ := h
      have := Move.tryClosed (cap := cap) (same := same) (v := v) h1 hc
      rwa [hc] at this
    | false =>
      by_cases hl : σ.msgs.length < cap
      · simp only [hc, Bool.false_eq_true, if_false, hl, if_true] at h
        have := Move.tryPut (cap := cap) (same := same) (v := v) h1 hc hl
        rw [hc] at this
        cases h
        exact this
      · simp only [hc, Bool.false_eq_true, if_false, hl] at h
        have := Move.tryFull (cap := cap) (same := same) (v := v) h1 hc hl
        rw [hc] at this
        cases h
        exact this
  | send m v u =>
    obtain ⟨h1, h⟩ := guard h
    have := Move.send (cap := cap) (same := same) (v := v) (u := u) h1
    rw [Option.some.inj h] at this
    exact this
  | pollSend k v u =>
    obtain ⟨h1, h⟩ := guard h
    split at h
    · cases h
      exact .still h1 ‹_›
    · have := Move.again (cap := cap) (same := same) (v := v) (u := u) h1 ‹_›
      rw [Option.some.inj h] at this
      exact this
  | cancel k =>
    obtain ⟨h1, h⟩ := guard h
    cases h
    exact .cancel h1
  | tryRecv =>
    obtain ⟨h1, h⟩ := guard h
    split at h
    · cases h
      exact .tryGot h1 ‹_›
    · cases h
      exact .tryNone h1 ‹_›
  | recv u =>
    obtain ⟨h1, h⟩ := guard h
    split at h
    · cases h
      exact .got h1 ‹_›
    · split at h
      · cases h
        exact .ended h1 ‹_› ‹_›
      · cases h
        exact .pending h1 ‹_› (eq_false_of_ne_true ‹_›)
  | dropRx =>
    obtain ⟨h1, h⟩ := guard h
    cases h
    exact .dropRx h1

theorem Move.balance (h : Move cap same σ call σ' o) : Balance σ call (σ', o) := by
  cases h with
  | @send m v u h => exact Spec.attempt_balance (σ := { σ with next := σ.next + 1, futs := (σ.next, m) :: σ.futs }) (call := .send m v u) σ.next rfl
  | again h => exact Spec.attempt_balance (call := .pollSend _ _ _) _ rfl
  | tryGot h hm => exact Spec.freed_balance _ _ hm rfl
  | got h hm => exact Spec.freed_balance _ _ hm rfl
  | dropLast =>
    simp only [Balance, woke_sent', woke_taken']
    simp
  | dropRx =>
    simp only [Balance, woke_sent, woke_taken]
    simp
  | tryPut h =>
    simp only [Balance, Spec.put_any, Spec.put_taken]
    simp [Spec.put, Call.value]
  | tryNone => cases hc : σ.closed <;> simp [Balance, Obs.isSent, Obs.taken]
  | clone => simp [Balance]
  | dropTx => simp [Balance]
  | cancel => simp [Balance, Spec.resolved]
  | tryClosed => simp [Balance, Obs.isSent, Obs.taken]
  | tryFull => simp [Balance, Obs.isSent, Obs.taken]
  | still => simp [Balance, Obs.isSent, Obs.taken]
  | ended => simp [Balance, Obs.isSent, Obs.taken]
  | pending => simp [Balance, Obs.isSent, Obs.taken]

/-! ## No panics -/

/-- A normal result. -/
def Obs.good : Obs V W → Bool
  | .panicked | .got none => false
  | _ => true

theorem woke_good {α : Type} (l : List α) (f : α → W) : (l.map fun x => (Obs.woke (f x) : Obs V W)).all Obs.good = true := by
  rw [List.all_eq_true]
  intro x hx
  obtain ⟨y, _, rfl⟩ := List.mem_map.1 hx
  rfl

theorem Spec.put_good (σ : Spec V W) (v : V) : (σ.put v).2.all Obs.good = true := by
  simp only [Spec.put, List.all_cons]
  rw [show (σ.rxWaker.toList.map Obs.woke : List (Obs V W)).all Obs.good = true from woke_good _ id]
  rfl

theorem Spec.attempt_good (k : Nat) (v : V) (u : W) : (σ.attempt cap k v u).2.all Obs.good = true := by
  unfold Spec.attempt
  split
  · rfl
  · split
    · exact Spec.put_good _ _
    · rfl

theorem Spec.freed_good : σ.freed.2.all Obs.good = true := by
  unfold Spec.freed
  split <;> rfl

theorem Move.good (h : Move cap same σ call σ' o) : o.all Obs.good = true := by
  cases h with
  | send h => exact Spec.attempt_good _ _ _
  | again h => exact Spec.attempt_good _ _ _
  | tryGot h hm => rw [List.all_cons, Spec.freed_good]; rfl
  | got h hm => rw [List.all_cons, Spec.freed_good]; rfl
  | dropLast => exact woke_good _ id
  | dropRx => exact woke_good _ _
  | tryPut h => exact Spec.put_good _ _
  | tryNone => cases hc : σ.closed <;> rfl
  | clone => rfl
  | dropTx => rfl
  | cancel => rfl
  | tryClosed => rfl
  | tryFull => rfl
  | still => rfl
  | ended => rfl
  | pending => rfl

/-! ## Who sleeps, and why -/

/-- What holds between calls, whatever the calls: the capacity is respected, the receiver sleeps only when there is
nothing to receive, the futures in line are pending, every future is counted once. -/
structure Sane (cap : Nat) (σ : Spec V W) : Prop where
  le : σ.msgs.length ≤ cap
  rxWaker : σ.rxWaker ≠ none → σ.msgs = [] ∧ (σ.closed = true → σ.rx = false)
  closed : σ.closed = true ↔ σ.senders = [] ∨ σ.rx = false
  nodup : (σ.futs.map Prod.fst).Nodup
  lt : ∀ x ∈ σ.futs, x.1 < σ.next ∧ x.2 ∈ σ.senders
  wnodup : (σ.waiting.map Prod.fst).Nodup
  sub : ∀ k ∈ σ.waiting.map Prod.fst, k ∈ σ.futs.map Prod.fst
  open_ : σ.waiting ≠ [] → σ.closed = false

/-- As long as no send future was dropped: if send futures sleep, the places that are free are covered by futures that were woken. -/
def Covered (cap : Nat) (σ : Spec V W) : Prop := σ.waiting ≠ [] → cap ≤ σ.msgs.length + σ.woken.length

theorem Sane.init : Sane cap (Spec.init : Spec V W) where
  le := Nat.zero_le _
  rxWaker := fun h => absurd rfl h
  closed := by simp [Spec.init]
  nodup := List.nodup_nil
  lt := by simp [Spec.init]
  wnodup := List.nodup_nil
  sub := by simp [Spec.init]
  open_ := fun h => absurd rfl h

theorem filter_map_ne (l : List (Nat × α)) (k m : Nat) :
    m ∈ (l.filter fun x => x.1 ≠ k).map Prod.fst ↔ m ∈ l.map Prod.fst ∧ m ≠ k := by
  simp only [List.mem_map, List.mem_filter, ne_eq, decide_not, Bool.not_eq_true', decide_eq_false_iff_not]
  constructor
  · rintro ⟨x, ⟨h1, h2⟩, rfl⟩
    exact ⟨⟨x, h1, rfl⟩, h2⟩
  · rintro ⟨⟨x, h1, rfl⟩, h2⟩
    exact ⟨x, ⟨h1, h2⟩, rfl⟩

theorem filter_nodup {l : List (Nat × α)} (h : (l.map Prod.fst).Nodup) (p : Nat × α → Bool) :
    ((l.filter p).map Prod.fst).Nodup :=
  h.sublist ((List.filter_sublist (p := p) (l := l)).map Prod.fst)

theorem rewake_keys (k : Nat) (u : W) (l : List (Nat × W)) : (rewake same k u l).map Prod.fst = l.map Prod.fst := by
  unfold rewake
  rw [List.map_map]
  apply List.map_congr_left
  intro x _
  simp only [Function.comp]
  split
  · exact ‹x.1 = k›.symm
  · rfl

theorem Sane.resolved (h : Sane cap σ) {k : Nat} (hk : k ∉ σ.waiting.map Prod.fst) : Sane cap (σ.resolved k) :=
  { h with
    nodup := filter_nodup h.nodup _
    lt := fun x hx => h.lt x (List.mem_filter.1 hx).1
    sub := fun m hm => (filter_map_ne _ _ _).2 ⟨h.sub m hm, fun e => hk (e ▸ hm)⟩ }

theorem Sane.put (h : Sane cap σ) (hl : σ.msgs.length < cap) (v : V) : Sane cap (σ.put v).1 :=
  { h with
    le := by simp only [Spec.put, List.length_append, List.length_singleton]; omega
    rxWaker := fun hh => absurd rfl hh }

theorem Sane.attempt (h : Sane cap σ) {k : Nat} (hk : k ∉ σ.waiting.map Prod.fst) (hf : k ∈ σ.futs.map Prod.fst) (v : V) (u : W) :
    Sane cap (σ.attempt cap k v u).1 := by
  unfold Spec.attempt
  split
  · exact h.resolved hk
  · rename_i hc
    split
    · exact (h.resolved hk).put ‹_› v
    · exact { h with
        wnodup := by
          simp only [List.map_append, List.map_cons, List.map_nil]
          rw [List.nodup_append]
          refine ⟨h.wnodup, by simp, ?_⟩
          intro a ha b hb
          simp only [List.mem_singleton] at hb
          subst hb
          exact fun e => hk (e ▸ ha)
        sub := fun m hm => by
          simp only [List.map_append, List.map_cons, List.map_nil, List.mem_append, List.mem_singleton] at hm
          rcases hm with hm | rfl
          · exact h.sub m hm
          · exact hf
        open_ := fun _ => eq_false_of_ne_true hc }

theorem Sane.freed {x : V} {l : List V} (h : Sane cap σ) (hm : σ.msgs = x :: l) : Sane cap ({ σ with msgs := l } : Spec V W).freed.1 := by
  have hw : σ.rxWaker = none := by
    cases hh : σ.rxWaker with
    | none => rfl
    | some u =>
      have := (h.rxWaker (by rw [hh]; simp)).1
      rw [hm] at this; cases this
  have hl : l.length ≤ cap := by have := h.le; rw [hm] at this; simp at this; omega
  have h1 : Sane cap ({ σ with msgs := l } : Spec V W) := { h with le := hl, rxWaker := fun hh => absurd hw hh }
  unfold Spec.freed
  split
  · rename_i k u t ht
    simp only at ht
    exact { h1 with
      wnodup := by
        have := h.wnodup
        rw [ht] at this
        exact (List.nodup_cons.1 this).2
      sub := fun m hm => h.sub m (by rw [ht]; exact List.mem_cons_of_mem _ hm)
      open_ := fun _ => h.open_ (by rw [ht]; simp) }
  · exact { h1 with }

theorem Move.sane (hm : Move cap same σ call σ' o) (h : Sane cap σ) : Sane cap σ' := by
  have fresh : σ.next ∉ σ.futs.map Prod.fst := by
    intro hh
    obtain ⟨x, hx, he⟩ := List.mem_map.1 hh
    exact absurd (h.lt x hx).1 (by omega)
  cases hm with
  | clone hm =>
    exact { h with
      closed := by
        refine h.closed.trans ⟨fun hh => hh.elim (fun hn => ?_) .inr, fun hh => hh.elim (fun hn => by cases hn) .inr⟩
        rw [hn] at hm; cases hm
      lt := fun x hx => ⟨Nat.lt_succ_of_lt (h.lt x hx).1, List.mem_cons_of_mem _ (h.lt x hx).2⟩ }
  | @dropTx m hm hf hn =>
    exact { h with
      closed := by
        refine h.closed.trans ⟨fun hh => hh.elim (fun hn => ?_) .inr, fun hh => hh.elim (fun hh => absurd hh hn) .inr⟩
        rw [hn] at hm; cases hm
      lt := fun x hx => ⟨(h.lt x hx).1, (List.mem_erase_of_ne (hf x hx)).2 (h.lt x hx).2⟩ }
  | @dropLast m hm hf hn =>
    have hf0 : σ.futs = [] := by
      cases hh : σ.futs with
      | nil => rfl
      | cons x l =>
        have hx : x ∈ σ.futs := by rw [hh]; simp
        have := (List.mem_erase_of_ne (hf x hx)).2 (h.lt x hx).2
        rw [hn] at this; cases this
    have hw0 : σ.waiting = [] := by
      cases hh : σ.waiting with
      | nil => rfl
      | cons x l =>
        have := h.sub x.1 (by rw [hh]; simp)
        rw [hf0] at this; cases this
    exact { h with
      rxWaker := fun hh => absurd rfl hh
      closed := ⟨fun _ => .inl hn, fun _ => rfl⟩
      lt := fun x hx => ⟨(h.lt x hx).1, (List.mem_erase_of_ne (hf x hx)).2 (h.lt x hx).2⟩
      open_ := fun hh => absurd hw0 hh }
  | tryClosed => exact { h with lt := fun x hx => ⟨Nat.lt_succ_of_lt (h.lt x hx).1, (h.lt x hx).2⟩ }
  | tryPut _ _ hl =>
    exact Sane.put (σ := { σ with next := σ.next + 1 }) { h with lt := fun x hx => ⟨Nat.lt_succ_of_lt (h.lt x hx).1, (h.lt x hx).2⟩ } hl _
  | tryFull => exact { h with lt := fun x hx => ⟨Nat.lt_succ_of_lt (h.lt x hx).1, (h.lt x hx).2⟩ }
  | @send m v u hm =>
    refine Sane.attempt (σ := { σ with next := σ.next + 1, futs := (σ.next, m) :: σ.futs }) ?_ (fun hh => fresh (h.sub _ hh)) (by simp) v u
    exact { h with
      nodup := by
        simp only [List.map_cons]
        exact List.nodup_cons.2 ⟨fresh, h.nodup⟩
      lt := fun x hx => by
        rcases List.mem_cons.1 hx with rfl | hx
        · exact ⟨Nat.lt_succ_self _, hm⟩
        · exact ⟨Nat.lt_succ_of_lt (h.lt x hx).1, (h.lt x hx).2⟩
      sub := fun k hk => List.mem_cons_of_mem _ (h.sub k hk) }
  | @still k v u hf hk =>
    exact { h with
      wnodup := by simp only [rewake_keys]; exact h.wnodup
      sub := fun m hm => by simp only [rewake_keys] at hm; exact h.sub m hm
      open_ := fun hh => h.open_ (fun he => hh (by simp [he, rewake])) }
  | again hf hk => exact h.attempt hk hf _ _
  | @cancel k hf =>
    exact { h with
      nodup := filter_nodup h.nodup _
      lt := fun x hx => h.lt x (List.mem_filter.1 hx).1
      wnodup := filter_nodup h.wnodup _
      sub := fun m hm => by
        have hm := (filter_map_ne _ _ _).1 hm
        exact (filter_map_ne _ _ _).2 ⟨h.sub m hm.1, hm.2⟩
      open_ := fun hh => h.open_ (fun he => hh (by simp [he])) }
  | tryGot _ hm => exact h.freed hm
  | tryNone => exact h
  | got _ hm => exact h.freed hm
  | ended => exact h
  | pending _ hm hc => exact { h with rxWaker := fun _ => ⟨hm, fun hh => by rw [hc] at hh; cases hh⟩ }
  | dropRx =>
    exact { h with
      rxWaker := fun hh => ⟨(h.rxWaker hh).1, fun _ => rfl⟩
      closed := ⟨fun _ => .inr rfl, fun _ => rfl⟩
      wnodup := List.nodup_nil
      sub := fun m hm => by cases hm
      open_ := fun hh => absurd rfl hh }

/-! ## Sleeping senders -/

theorem filter_length_lt {α : Type} {p q : α → Bool} {l : List α} (hpq : ∀ x ∈ l, p x = true → q x = true) {y : α} (hy : y ∈ l)
    (h1 : p y = false) (h2 : q y = true) : (l.filter p).length + 1 ≤ (l.filter q).length := by
  have mono : ∀ {l : List α}, (∀ x ∈ l, p x = true → q x = true) → (l.filter p).length ≤ (l.filter q).length := by
    intro l
    induction l with
    | nil => intro _; exact Nat.le_refl _
    | cons x l ih =>
      intro h
      have := ih fun x hx => h x (List.mem_cons_of_mem _ hx)
      cases hp : p x with
      | true => simp [hp, h x (by simp) hp, this]
      | false =>
        cases hq : q x <;> simp [hp, hq] <;> omega
  induction l with
  | nil => cases hy
  | cons x l ih =>
    have hl : ∀ x ∈ l, p x = true → q x = true := fun x hx => hpq x (List.mem_cons_of_mem _ hx)
    rcases List.mem_cons.1 hy with rfl | hy
    · have := mono hl
      simp [h1, h2, this]
    · have := ih hl hy
      cases hp : p x with
      | true => simp [hp, hpq x (by simp) hp]; omega
      | false => cases hq : q x <;> simp [hp, hq] <;> omega

theorem filter_ne_length {α : Type} {l : List (Nat × α)} (h : (l.map Prod.fst).Nodup) (k : Nat) :
    l.length ≤ (l.filter fun x => x.1 ≠ k).length + 1 := by
  induction l with
  | nil => simp
  | cons x l ih =>
    simp only [List.map_cons] at h
    obtain ⟨h1, h2⟩ := List.nodup_cons.1 h
    by_cases hx : x.1 = k
    · have : l.filter (fun x => x.1 ≠ k) = l := by
        rw [List.filter_eq_self]
        intro y hy
        simp only [ne_eq, decide_not, Bool.not_eq_true', decide_eq_false_iff_not]
        intro he
        exact h1 (hx ▸ he ▸ List.mem_map.2 ⟨y, hy, rfl⟩)
      simp only [List.filter_cons, hx, ne_eq, not_true_eq_false, decide_false, Bool.false_eq_true, if_false, List.length_cons]
      rw [this]
      omega
    · have := ih h2
      simp only [ne_eq] at this
      simp only [List.filter_cons, ne_eq, hx, not_false_eq_true, decide_true, if_true, List.length_cons]
      omega

theorem Covered.put (hs : Sane cap σ) (h : Covered cap σ) (k : Nat) (v : V) : Covered cap ((σ.resolved k).put v).1 := by
  intro hw
  have h1 := h hw
  have h2 : (σ.resolved k).woken = σ.woken.filter fun x => x.1 ≠ k := by
    simp only [Spec.woken, Spec.resolved, List.filter_filter]
    apply List.filter_congr
    intro x _
    exact Bool.and_comm _ _
  have h3 := filter_ne_length (filter_nodup hs.nodup (fun x => x.1 ∉ σ.waiting.map Prod.fst)) k
  show cap ≤ (σ.msgs ++ [v]).length + (σ.resolved k).woken.length
  rw [h2, List.length_append, List.length_singleton]
  simp only [Spec.woken] at h1 h3 ⊢
  omega

theorem Covered.attempt (hs : Sane cap σ) (h : Covered cap σ) (k : Nat) (v : V) (u : W) : Covered cap (σ.attempt cap k v u).1 := by
  unfold Spec.attempt
  split
  · rename_i hc
    intro hw
    have := hs.open_ hw
    rw [hc] at this; cases this
  · split
    · exact h.put hs k v
    · rename_i hl
      intro _
      show cap ≤ σ.msgs.length + _
      omega

theorem Covered.freed (hs : Sane cap σ) (h : Covered cap σ) {x : V} {l : List V} (hm : σ.msgs = x :: l) :
    Covered cap ({ σ with msgs := l } : Spec V W).freed.1 := by
  unfold Spec.freed
  split
  · rename_i k u t ht
    simp only at ht
    intro hw
    have h1 := h (by rw [ht]; simp)
    have hn := hs.wnodup
    rw [ht] at hn
    obtain ⟨hn1, -⟩ := List.nodup_cons.1 hn
    have hk : k ∈ σ.futs.map Prod.fst := hs.sub k (by rw [ht]; simp)
    obtain ⟨y, hy, rfl⟩ := List.mem_map.1 hk
    have h2 := filter_length_lt (l := σ.futs) (p := fun x => x.1 ∉ σ.waiting.map Prod.fst) (q := fun x => x.1 ∉ t.map Prod.fst) (y := y)
      (by
        intro x _ hx
        simp only [ht, List.map_cons, List.mem_cons, not_or, decide_eq_true_eq] at hx ⊢
        exact hx.2) hy
      (by rw [ht]; simp) (by simpa using hn1)
    show cap ≤ l.length + (σ.futs.filter fun x => x.1 ∉ t.map Prod.fst).length
    rw [hm] at h1
    simp only [List.length_cons, Spec.woken] at h1
    omega
  · rename_i ht
    simp only at ht
    intro hw
    exact absurd ht hw

theorem Move.covered (hm : Move cap same σ call σ' o) (hs : Sane cap σ) (h : Covered cap σ) (hc : call.isCancel = false) :
    Covered cap σ' := by
  cases hm with
  | clone => exact h
  | dropTx => exact h
  | dropLast => exact h
  | tryClosed => exact h
  | tryPut _ _ hl =>
    intro hw
    have := h hw
    show cap ≤ (σ.msgs ++ _).length + σ.woken.length
    rw [List.length_append]
    omega
  | tryFull => exact h
  | @send m v u hm =>
    have hs1 : Sane cap ({ σ with next := σ.next + 1, futs := (σ.next, m) :: σ.futs } : Spec V W) := by
      exact { hs with
        nodup := by
          simp only [List.map_cons]
          refine List.nodup_cons.2 ⟨?_, hs.nodup⟩
          intro hh
          obtain ⟨x, hx, he⟩ := List.mem_map.1 hh
          exact absurd (hs.lt x hx).1 (by omega)
        lt := fun x hx => by
          rcases List.mem_cons.1 hx with rfl | hx
          · exact ⟨Nat.lt_succ_self _, hm⟩
          · exact ⟨Nat.lt_succ_of_lt (hs.lt x hx).1, (hs.lt x hx).2⟩
        sub := fun k hk => List.mem_cons_of_mem _ (hs.sub k hk) }
    refine Covered.attempt hs1 ?_ σ.next v u
    intro hw
    have h1 := h hw
    refine Nat.le_trans h1 (Nat.add_le_add_left ?_ _)
    simp only [Spec.woken, List.filter_cons]
    split <;> simp
  | still hf hk =>
    intro hw
    have h1 := h (fun he => hw (by simp [he, rewake]))
    simp only [Spec.woken, rewake_keys]
    exact h1
  | again => exact h.attempt hs _ _ _
  | cancel => cases hc
  | tryGot _ hm => exact h.freed hs hm
  | tryNone => exact h
  | got _ hm => exact h.freed hs hm
  | ended => exact h
  | pending => exact h
  | dropRx => intro hw; exact absurd rfl hw

/-! ## Sequences of calls -/

theorem Spec.run_cons {call : Call V W} (h : σ.run cap same (call :: calls) = some (σ', os)) :
    ∃ σ1 o os', Move cap same σ call σ1 o ∧ σ1.run cap same calls = some (σ', os') ∧ os = o :: os' := by
  simp only [Spec.run] at h
  split at h
  case h_1 => cases h
  rename_i σ1 o h1
  split at h
  case h_1 => cases h
  rename_i σ2 os' h2
  cases h
  exact ⟨σ1, o, os', Spec.step_move h1, h2, rfl⟩

theorem Spec.run_sane (hs : Sane cap σ) (h : σ.run cap same calls = some (σ', os)) : Sane cap σ' := by
  induction calls generalizing σ os with
  | nil => cases h; exact hs
  | cons call calls ih =>
    obtain ⟨σ1, o, os', h1, h2, rfl⟩ := Spec.run_cons h
    exact ih (h1.sane hs) h2

theorem Spec.run_covered (hs : Sane cap σ) (hc : Covered cap σ) (hn : ∀ x ∈ calls, x.isCancel = false)
    (h : σ.run cap same calls = some (σ', os)) : Covered cap σ' := by
  induction calls generalizing σ os with
  | nil => cases h; exact hc
  | cons call calls ih =>
    obtain ⟨σ1, o, os', h1, h2, rfl⟩ := Spec.run_cons h
    exact ih (h1.sane hs) (h1.covered hs hc (hn _ (by simp))) (fun x hx => hn x (List.mem_cons_of_mem _ hx)) h2

theorem Spec.run_good (h : σ.run cap same calls = some (σ', os)) : ∀ o ∈ os, o.all Obs.good = true := by
  induction calls generalizing σ os with
  | nil => cases h; simp
  | cons call calls ih =>
    obtain ⟨σ1, o, os', h1, h2, rfl⟩ := Spec.run_cons h
    intro x hx
    rcases List.mem_cons.1 hx with rfl | hx
    · exact h1.good
    · exact ih h2 x hx

theorem Spec.run_balance (h : σ.run cap same calls = some (σ', os)) : σ.msgs ++ sentOf calls os = gotOf os ++ σ'.msgs := by
  induction calls generalizing σ os with
  | nil => cases h; simp [sentOf, gotOf]
  | cons call calls ih =>
    obtain ⟨σ1, o, os', h1, h2, rfl⟩ := Spec.run_cons h
    have e1 := h1.balance
    have e2 := ih h2
    simp only [Balance] at e1
    simp only [sentOf, gotOf, List.flatten_cons, List.filterMap_append] at *
    rw [← List.append_assoc, e1, List.append_assoc, e2, List.append_assoc]

end Thingbuf.Chan
