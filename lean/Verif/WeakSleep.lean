import Verif.ChanLink
import Verif.TraceProps
import Verif.QueueLoadsProps

/-!
# Senders that sleep, from the events alone

Helper lemmas for `WeakProps`. Nothing is assumed here of the machine on which the channel runs, except what is known of the events of its ring
buffer (`Facts`) and of its wait queue (`LExec`), so this holds without sequential consistency.
-/

namespace Thingbuf

/-- As `Run.ret_reserved`, of a push operation. -/
theorem Facts.push_ret {m : Prop} {w cap : Nat} {V : Type} {tr : Trace V} (h : Facts m w cap tr) {pre post : Trace V} {a : OpId} {r : Ret}
    (htr : tr = pre ++ .ret a r :: post) (hi : Event.invoke a .push ∈ tr) :
    a ∈ resOps pre ∨ (r = .full ∧ nRes pre = nDeq pre + cap) ∨ (r = .closed ∧ Closed pre) := by
  obtain ⟨-, -, h1⟩ := h.evOk htr
  have key : ∀ op, Event.invoke a op ∈ pre → op = .push := fun op ho =>
    h.invoke_unique (show Event.invoke a op ∈ tr by rw [htr]; simp [ho]) hi
  cases r with
  | pushed => exact .inl h1.1
  | panicked => exact .inl h1.1
  | full => exact .inr (.inl ⟨rfl, h1.2.2.2.1⟩)
  | closed => exact .inr (.inr ⟨rfl, h1.2.2.1⟩)
  | popped => cases key _ h1.2
  | empty => cases key _ h1.2.2.1
  | len n => cases key _ h1.2.2.1
  | closeRet b =>
    rcases h1 with h1 | h1
    · cases key _ h1.1
    · cases key _ h1.1
  | crash x => exact h1.2.2.elim

end Thingbuf

namespace Thingbuf.Queue

variable {W : Type} {c : Config W} {tr : Trace W} {s : State W} {b : Bool}

/-- `start_wait` returns as soon as it has consumed a notification. -/
theorem ExecM.consume_returns (h : ExecM b c tr s) {pre post : Trace W} {n : Nat} (htr : tr = pre ++ .consume n :: post) :
    .retStart n .notified ∈ post := by
  induction h generalizing pre post with
  | init => simp at htr
  | stale hb h hs ih => exact ih htr
  | @step tr s s' act evs h hs ih =>
    rcases append_split htr with ⟨post', rfl, h2⟩ | ⟨e1, h2, rfl⟩
    · simp [ih h2]
    · obtain ⟨t, p, st, lk, l, b, rx, -, ht⟩ := step_tr hs
      have hm : Event.consume n ∈ evs := by rw [h2]; simp
      cases ht
      case startConsume | loopConsume =>
        cases e1 with
        | nil => simp at h2; obtain ⟨rfl, rfl⟩ := h2; simp
        | cons x e1 =>
          simp at h2
          cases e1 with
          | nil => simp at h2
          | cons y e1 => simp at h2
      all_goals first
        | (simp at hm; done)
        | (simp only [List.mem_append, List.mem_map, List.mem_cons, List.not_mem_nil, or_false, reduceCtorEq, and_false, exists_false, false_or] at hm
           simp only [deqEvents] at hm
           split at hm <;> simp at hm)

end Thingbuf.Queue

namespace Thingbuf.Chan

variable {w cap : Nat} {V W : Type} {qc : Queue.Config W} {tr : Trace V W} {l : Queue.LState W} {m : Prop}

@[simp] theorem coreOf_cons_core (e : Event V) (t : Trace V W) : coreOf (.core e :: t) = e :: coreOf t := rfl
@[simp] theorem coreOf_cons_queue (e : Queue.Event W) (t : Trace V W) : coreOf (.queue e :: t) = coreOf t := rfl
@[simp] theorem queueOf_cons_queue (e : Queue.Event W) (t : Trace V W) : queueOf (.queue e :: t) = e :: queueOf t := rfl
@[simp] theorem queueOf_cons_core (e : Event V) (t : Trace V W) : queueOf (.core e :: t) = queueOf t := rfl

theorem queueOf_split {x y : Queue.Trace W} {e : Queue.Event W} (h : queueOf tr = x ++ e :: y) :
    ∃ X Y, tr = X ++ .queue e :: Y ∧ queueOf X = x ∧ queueOf Y = y := by
  obtain ⟨A, B, rfl, h1, h2⟩ := List.filterMap_eq_append_iff.1 (show tr.filterMap _ = x ++ e :: y from h)
  obtain ⟨P, z, Q, rfl, h3, h4, h5⟩ := List.filterMap_eq_cons_iff.1 h2
  cases z <;> simp at h4
  subst h4
  refine ⟨A ++ P, Q, by simp, ?_, h5⟩
  rw [queueOf_append, show queueOf A = x from h1, show queueOf P = [] from List.filterMap_eq_nil_iff.2 (by simpa using h3)]
  simp

theorem coreOf_split {x y : Thingbuf.Trace V} {e : Event V} (h : coreOf tr = x ++ e :: y) :
    ∃ X Y, tr = X ++ .core e :: Y ∧ coreOf X = x ∧ coreOf Y = y := by
  obtain ⟨A, B, rfl, h1, h2⟩ := List.filterMap_eq_append_iff.1 (show tr.filterMap _ = x ++ e :: y from h)
  obtain ⟨P, z, Q, rfl, h3, h4, h5⟩ := List.filterMap_eq_cons_iff.1 h2
  cases z <;> simp at h4
  subst h4
  refine ⟨A ++ P, Q, by simp, ?_, h5⟩
  rw [coreOf_append, show coreOf A = x from h1, show coreOf P = [] from List.filterMap_eq_nil_iff.2 (by simpa using h3)]
  simp

/-- How the channel uses the ring buffer and the wait queue, when nothing is half way through: a call waits only after a push that found the
channel full; a call that was notified tries to push again; whoever gives back a slot calls `notify`; and the calls have ended. -/
structure Protocol (tr : Trace V W) : Prop where
  fullFirst : ∀ pre n v post, tr = pre ++ .queue (.callStart n v) :: post → ∃ a, .core (.ret a .full) ∈ pre
  retry : ∀ pre n post, tr = pre ++ .queue (.retStart n .notified) :: post ∨ tr = pre ++ .queue (.retCont n .notified) :: post →
    ∃ a r, .core (.invoke a .push) ∈ post ∧ .core (.ret a r) ∈ post
  notifies : ∀ pre b i v post, tr = pre ++ .core (.release b i v) :: post → ∃ o, .queue (.callNotify o) ∈ post
  ended : ∀ o, .queue (.callNotify o) ∈ tr → ∃ b, .queue (.retNotify o b) ∈ tr
  heard : ∀ pre o n post, tr = pre ++ .queue (.deq o n) :: post → .queue (.retCont n .notified) ∈ post
  closeCore : ∀ a, .core (.close a) ∉ tr
  closeQueue : ∀ o, .queue (.closing o) ∉ tr

/-- Everything that was reserved has been dequeued, and the slot was given back. -/
def AllReleased (tr : Thingbuf.Trace V) : Prop := ∀ k < nRes tr, ∃ b, (deqOps tr)[k]? = some b ∧ Released tr b

section
variable (hf : Facts m w cap (coreOf tr)) (hp : Protocol tr) (ha : AllReleased (coreOf tr))
include hf hp ha

/-- What was not dequeued at some time is released later, so that there is a `notify` later. -/
theorem notify_after {pre post : Trace V W} (htr : tr = pre ++ post) {k : Nat} (h1 : nDeq (coreOf pre) ≤ k) (h2 : k < nRes (coreOf tr)) :
    ∃ o, .queue (.callNotify o) ∈ post := by
  obtain ⟨b, h3, i, v, h4⟩ := ha k h2
  obtain ⟨x, y, hxy⟩ := List.append_of_mem h4
  obtain ⟨⟨p, -, h5⟩, -⟩ := hf.evOk hxy
  obtain ⟨X, Y, rfl, rfl, rfl⟩ := coreOf_split hxy
  rcases Nat.lt_or_ge X.length pre.length with hlt | hge
  · exfalso
    have hpre : X <+: pre := List.prefix_of_prefix_length_le (l₃ := X ++ .core (.release b i v) :: Y) ⟨_, rfl⟩ ⟨post, htr.symm⟩ (by omega)
    obtain ⟨Z, rfl⟩ := hpre
    have h6 : (deqOps (coreOf (X ++ .core (.release b i v) :: Y)))[p]? = some b := by
      rw [coreOf_append, deqOps_append]; exact getElem?_append_of_some h5.deq
    have := nodup_idx hf.nodup_deq h3 h6
    subst this
    have h7 := (List.getElem?_eq_some_iff.1 h5.deq).1
    have h8 : nDeq (coreOf (X ++ Z)) = nDeq (coreOf X) + nDeq (coreOf Z) := by rw [coreOf_append, nDeq_append]
    have h9 : nDeq (coreOf X) = (deqOps (coreOf X)).length := rfl
    omega
  · have hpre : pre <+: X := List.prefix_of_prefix_length_le (l₃ := X ++ .core (.release b i v) :: Y) ⟨post, htr.symm⟩ ⟨_, rfl⟩ hge
    obtain ⟨Z, rfl⟩ := hpre
    obtain ⟨o, ho⟩ := hp.notifies _ _ _ _ _ rfl
    have : post = Z ++ .core (.release b i v) :: Y := by
      rw [List.append_assoc] at htr; exact (List.append_cancel_left htr).symm
    exact ⟨o, by rw [this]; simp [ho]⟩

/-- After a push that found the channel full there is a `notify`. -/
theorem notify_after_full {pre post : Trace V W} {a : OpId} (htr : tr = pre ++ .core (.ret a .full) :: post) : ∃ o, .queue (.callNotify o) ∈ post := by
  have h1 := (hf.full_truthful (pre := coreOf pre) (post := coreOf post) (a := a) (by rw [htr]; simp)).2.2
  have h2 := hf.sized.1
  have h3 : nRes (coreOf tr) = nRes (coreOf pre) + nRes (coreOf (.core (.ret a .full) :: post)) := by rw [htr, coreOf_append, nRes_append]
  obtain ⟨o, ho⟩ := notify_after hf hp ha htr (Nat.le_refl _) (by omega)
  exact ⟨o, by simpa using ho⟩

/-- After a push there is a `notify`. -/
theorem notify_after_push {pre post : Trace V W} {a : OpId} {r : Ret} (htr : tr = pre ++ post) (h1 : .core (.invoke a .push) ∈ post)
    (h2 : .core (.ret a r) ∈ post) : ∃ o, .queue (.callNotify o) ∈ post := by
  obtain ⟨x, y, rfl⟩ := List.append_of_mem h2
  have hc : coreOf tr = coreOf (pre ++ x) ++ .ret a r :: coreOf y := by rw [htr]; simp
  rcases hf.push_ret hc (mem_coreOf.2 (by rw [htr]; exact List.mem_append_right _ h1)) with h3 | ⟨rfl, -⟩ | ⟨-, b, h3⟩
  · obtain ⟨j, hj⟩ := mem_resOps.1 h3
    -- the reservation comes after the call, so it is not in `pre`
    have hn : a ∉ resOps (coreOf pre) := by
      intro hx
      obtain ⟨j', hj'⟩ := mem_resOps.1 hx
      obtain ⟨u, v, huv⟩ := List.append_of_mem hj'
      have h4 := (hf.evOk (pre := u) (e := .reserve a j') (post := v ++ coreOf (x ++ .core (.ret a r) :: y)) (by
        rw [htr, coreOf_append, huv]; simp)).1.inv
      obtain ⟨z, z', hz⟩ := List.append_of_mem h1
      have h5 := (hf.evOk (pre := coreOf (pre ++ z)) (e := .invoke a .push) (post := coreOf z') (by rw [htr, hz]; simp)).1
      exact h5 ⟨.push, by rw [coreOf_append, huv]; simp [h4]⟩
    obtain ⟨k, hk⟩ := List.mem_iff_getElem?.1 (show a ∈ resOps (coreOf tr) by rw [hc, resOps_append]; exact List.mem_append_left _ h3)
    have h6 : nRes (coreOf pre) ≤ k := by
      apply Classical.byContradiction
      intro hlt
      rw [htr, coreOf_append, resOps_append, List.getElem?_append_left (by rw [nRes] at hlt; omega)] at hk
      exact hn (List.mem_of_getElem? hk)
    have h7 := (hf.bounds (pre := coreOf pre) (by rw [htr, coreOf_append]; exact ⟨_, rfl⟩)).1
    exact notify_after hf hp ha htr (by omega) (List.getElem?_eq_some_iff.1 hk).1
  · obtain ⟨o, ho⟩ := notify_after_full hf hp ha (pre := pre ++ x) (post := y) (a := a) (by rw [htr]; simp)
    exact ⟨o, by simp [ho]⟩
  · exact absurd (mem_coreOf.1 (show Event.close b ∈ coreOf tr by rw [hc]; exact List.mem_append_left _ h3)) (hp.closeCore b)

end

/-- **The argument of C63**: a node that waits has something to wait for. -/
theorem Protocol.has_message (hp : Protocol tr) (hf : Facts m w cap (coreOf tr)) (hl : Queue.LExec qc (queueOf tr) l)
    (h1 : Queue.OneAfterTheOther l (queueOf tr)) {n : Nat} (hn : n ∈ Queue.queueOf (queueOf tr)) :
    ∃ (k : Nat) (a : OpId), (resOps (coreOf tr))[k]? = some a ∧ ∀ b, (deqOps (coreOf tr))[k]? = some b → ¬ Released (coreOf tr) b := by
  apply Classical.byContradiction
  intro hno
  have ha : AllReleased (coreOf tr) := by
    intro k hk
    apply Classical.byContradiction
    intro hb
    exact hno ⟨k, _, List.getElem?_eq_getElem hk, fun b h2 h3 => hb ⟨b, h2, h3⟩⟩
  -- there is a `notify`
  obtain ⟨qa, v, qb, hq, hd, hr⟩ := (Queue.C62_waiting_iff hl).1 hn
  obtain ⟨qc1, qc2, hcs, -⟩ := Queue.C62_start_records hl hq
  obtain ⟨A, B, htr, hA, hB⟩ := queueOf_split (tr := tr) (x := qc1) (e := .callStart n v) (y := qc2 ++ .enq n v :: qb) (by rw [hq, hcs]; simp)
  obtain ⟨a, hfull⟩ := hp.fullFirst _ _ _ _ htr
  obtain ⟨A1, A2, rfl⟩ := List.append_of_mem hfull
  obtain ⟨o0, ho0⟩ := notify_after_full hf hp ha (pre := A1) (post := A2 ++ .queue (.callStart n v) :: B) (a := a) (by rw [htr]; simp)
  -- the last one
  obtain ⟨P, o, Q, hPQ, hlast⟩ : ∃ P o Q, tr = P ++ .queue (.callNotify o) :: Q ∧ ∀ o', .queue (.callNotify o') ∉ Q := by
    have key : ∀ k (P Q : Trace V W) o, tr = P ++ .queue (.callNotify o) :: Q → Q.length ≤ k →
        ∃ P o Q, tr = P ++ .queue (.callNotify o) :: Q ∧ ∀ o', .queue (.callNotify o') ∉ Q := by
      intro k
      induction k with
      | zero =>
        intro P Q o h2 h3
        obtain rfl := List.length_eq_zero_iff.1 (Nat.le_zero.1 h3)
        exact ⟨P, o, [], h2, by simp⟩
      | succ k ih =>
        intro P Q o h2 h3
        by_cases h4 : ∃ o', Ev.queue (.callNotify o') ∈ Q
        · obtain ⟨o', h4⟩ := h4
          obtain ⟨Q1, Q2, rfl⟩ := List.append_of_mem h4
          exact ih (P ++ .queue (.callNotify o) :: Q1) Q2 o' (by rw [h2]; simp) (by simp at h3; omega)
        · exact ⟨P, o, Q, h2, fun o' ho' => h4 ⟨o', ho'⟩⟩
    obtain ⟨P, Q, h2⟩ := List.append_of_mem (show Ev.queue (.callNotify o0) ∈ tr by
      rw [htr, List.append_assoc, List.cons_append]; exact List.mem_append_right _ (List.mem_cons_of_mem _ ho0))
    exact key _ P Q o0 h2 (Nat.le_refl _)
  -- nobody pushes after it
  have stop : ∀ X Y : Trace V W, tr = X ++ Y → (∃ Z, Q = Z ++ Y) → ∀ a r, .core (.invoke a .push) ∈ Y → .core (.ret a r) ∈ Y → False := by
    rintro X Y h2 ⟨Z, rfl⟩ a r h3 h4
    obtain ⟨o', h5⟩ := notify_after_push hf hp ha h2 h3 h4
    exact hlast o' (by simp [h5])
  -- what it did
  obtain ⟨b, hret⟩ := hp.ended o (by rw [hPQ]; simp)
  have hsplit : Queue.opEvs (queueOf tr) o = Queue.opEvs (queueOf P) o ++ .callNotify o :: Queue.opEvs (queueOf Q) o := by
    rw [hPQ, Queue.opEvs, queueOf_append, List.filter_append]
    simp [Queue.opEvs, Queue.Event.byOp]
  have inQ : ∀ e es, Queue.opEvs (queueOf tr) o = .callNotify o :: es → .callNotify o ∉ es → e ∈ es → e ∈ queueOf Q := by
    intro e es h2 h3 h4
    rw [hsplit] at h2
    cases hx : Queue.opEvs (queueOf P) o with
    | nil =>
      rw [hx] at h2
      simp at h2
      rw [← h2] at h4
      exact (List.mem_filter.1 h4).1
    | cons y ys =>
      rw [hx] at h2
      simp at h2
      exact absurd (by rw [← h2.2]; simp) h3
  rcases Queue.C62_notify hl h1 (mem_queueOf.2 hret) with ⟨-, n', v', h2⟩ | ⟨-, h2⟩
  · -- it took a node, whose owner pushed again
    have h3 := inQ (.deq o n') _ h2 (by simp) (by simp)
    obtain ⟨Q1, Q2, rfl⟩ := List.append_of_mem (mem_queueOf.1 h3)
    have h4 := hp.heard (P ++ .queue (.callNotify o) :: Q1) o n' Q2 (by rw [hPQ]; simp)
    obtain ⟨Q3, Q4, rfl⟩ := List.append_of_mem h4
    have e : tr = P ++ .queue (.callNotify o) :: (Q1 ++ .queue (.deq o n') :: Q3) ++ .queue (.retCont n' .notified) :: Q4 := by rw [hPQ]; simp
    obtain ⟨a, r, h5, h6⟩ := hp.retry _ _ _ (.inr e)
    exact stop (P ++ .queue (.callNotify o) :: (Q1 ++ .queue (.deq o n') :: Q3) ++ [.queue (.retCont n' .notified)]) Q4 (by rw [e]; simp)
      ⟨Q1 ++ .queue (.deq o n') :: Q3 ++ [.queue (.retCont n' .notified)], by simp⟩ a r h5 h6
  · -- it was stored
    have h3 := inQ (.store o) _ h2 (by simp) (by simp)
    obtain ⟨Q1, Q2, rfl⟩ := List.append_of_mem (mem_queueOf.1 h3)
    have hst : queueOf tr = queueOf (P ++ .queue (.callNotify o) :: Q1) ++ .store o :: queueOf Q2 := by rw [hPQ]; simp
    have hempty := (Queue.C62_store_if_none_waits hl hst).1
    -- `n` was enqueued later
    rcases append_split (tr := queueOf (P ++ .queue (.callNotify o) :: Q1)) (evs := .store o :: queueOf Q2) (hst.symm.trans hq)
      with ⟨post', h4, h5⟩ | ⟨e1, h4, h5⟩
    · have : n ∈ Queue.queueOf (queueOf (P ++ .queue (.callNotify o) :: Q1)) := by
        refine (Queue.mem_queueOf (hl.exec.evOk.prefix ⟨_, hst.symm⟩)).2 ⟨qa, v, post', h5, fun e he h6 => ?_⟩
        rcases h6 with ⟨o', rfl⟩ | rfl
        · exact hd o' (by rw [h4]; simp [he])
        · exact hr (by rw [h4]; simp [he])
      rw [hempty] at this
      cases this
    · cases e1 with
      | nil => simp at h4
      | cons x e1 =>
        simp at h4
        obtain ⟨rfl, h4⟩ := h4
        obtain ⟨m', h6⟩ := Queue.C62_stored_not_lost hl (o := o) hq h5
          (fun o' ho' => hp.closeQueue o' (mem_queueOf.1 (by rw [hq]; simp [ho']))) (.inr (hl.not_unordered h1))
        obtain ⟨u1, u2, h7⟩ := List.append_of_mem h6
        obtain ⟨U1, U2, rfl, rfl, hU2⟩ := queueOf_split (tr := Q2) (x := u1) (e := .consume m') (y := u2 ++ .enq n v :: qb) (by rw [h4, h7]; simp)
        have h8 := hl.exec.consume_returns (pre := queueOf (P ++ .queue (.callNotify o) :: (Q1 ++ .queue (.store o) :: U1))) (n := m') (post := queueOf U2)
          (by rw [hPQ]; simp)
        obtain ⟨U3, U4, rfl⟩ := List.append_of_mem (mem_queueOf.1 h8)
        have e : tr = P ++ .queue (.callNotify o) :: (Q1 ++ .queue (.store o) :: (U1 ++ .queue (.consume m') :: U3)) ++
            .queue (.retStart m' .notified) :: U4 := by rw [hPQ]; simp
        obtain ⟨a, r, h9, h10⟩ := hp.retry _ _ _ (.inl e)
        exact stop (P ++ .queue (.callNotify o) :: (Q1 ++ .queue (.store o) :: (U1 ++ .queue (.consume m') :: U3)) ++ [.queue (.retStart m' .notified)]) U4
          (by rw [e]; simp) ⟨Q1 ++ .queue (.store o) :: (U1 ++ .queue (.consume m') :: U3) ++ [.queue (.retStart m' .notified)], by simp⟩ a r h9 h10

end Thingbuf.Chan
