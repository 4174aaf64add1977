import Verif.QueueFineSim
import Verif.QueueProps

/-!
# Traces without accesses to memory; who accesses a node

Helper lemmas for `QueueFineProps`.
-/

namespace Thingbuf.Queue

variable {W : Type} {c : Config W}

/-! ## `quiet` -/

/-- Is the event an access to memory? -/
def Event.isTouch : Event W → Bool
  | .touch _ _ => true
  | _ => false

theorem quiet_eq (tr : Trace W) : quiet tr = tr.filter fun e => !e.isTouch := by
  unfold quiet
  congr 1
  funext e
  cases e <;> rfl

theorem mem_quiet {tr : Trace W} {e : Event W} (he : e.isTouch = false) : e ∈ quiet tr ↔ e ∈ tr := by
  simp [quiet_eq, he]

theorem mem_of_quiet {tr tr' : Trace W} (h : quiet tr' = quiet tr) {e : Event W}
    (he : e.isTouch = false) : e ∈ tr' ↔ e ∈ tr := by
  rw [← mem_quiet he, h, mem_quiet he]

theorem quiet_cons {e : Event W} (he : e.isTouch = false) (l : Trace W) :
    quiet (e :: l) = e :: quiet l := by
  simp [quiet_eq, he]

/-- Splitting a trace at an event that is not an access to memory. -/
theorem quiet_split {tr' pre post : Trace W} {e : Event W} (he : e.isTouch = false)
    (h : quiet tr' = quiet (pre ++ e :: post)) :
    ∃ pre' post', tr' = pre' ++ e :: post' ∧ quiet pre' = quiet pre ∧ quiet post' = quiet post := by
  rw [quiet_append, quiet_cons he, quiet_eq tr', List.filter_eq_append_iff] at h
  obtain ⟨l1, l2, h1, h2, h3⟩ := h
  rw [List.filter_eq_cons_iff] at h3
  obtain ⟨k1, k2, h4, h5, _, h6⟩ := h3
  refine ⟨l1 ++ k1, k2, by rw [h1, h4]; simp, ?_, by rw [quiet_eq, h6]⟩
  rw [quiet_append, quiet_eq l1, h2, quiet_eq k1, List.filter_eq_nil_iff.2 h5, List.append_nil]

theorem foldl_quiet {α : Type} (g : α → Event W → α) (hg : ∀ a t n, g a (.touch t n) = a)
    (tr : Trace W) (a : α) : (quiet tr).foldl g a = tr.foldl g a := by
  induction tr generalizing a with
  | nil => rfl
  | cons e tr ih =>
    cases he : e.isTouch with
    | false => rw [quiet_cons he]; simp only [List.foldl_cons]; exact ih _
    | true =>
      cases e <;> simp [Event.isTouch] at he
      rename_i t n
      have : quiet (Event.touch t n :: tr) = quiet tr := by simp [quiet]
      rw [this, ih]
      simp only [List.foldl_cons, hg]

theorem queueOf_quiet (tr : Trace W) : queueOf (quiet tr) = queueOf tr :=
  foldl_quiet _ (fun _ _ _ => rfl) _ _

theorem stored_quiet (tr : Trace W) : stored (quiet tr) = stored tr :=
  foldl_quiet _ (fun _ _ _ => rfl) _ _

theorem given_quiet (tr : Trace W) (n : Nat) : given (quiet tr) n = given tr n :=
  foldl_quiet _ (fun _ _ _ => rfl) _ _

theorem takenBy_quiet (tr : Trace W) (n : Nat) : takenBy (quiet tr) n = takenBy tr n :=
  foldl_quiet _ (fun _ _ _ => rfl) _ _

theorem opEvs_quiet (tr : Trace W) (o : Nat) : opEvs (quiet tr) o = opEvs tr o := by
  unfold opEvs
  rw [quiet_eq, List.filter_filter]
  congr 1
  funext e
  cases e <;> simp [Event.isTouch, Event.byOp]

theorem queueOf_congr {tr tr' : Trace W} (h : quiet tr' = quiet tr) : queueOf tr' = queueOf tr := by
  rw [← queueOf_quiet, h, queueOf_quiet]

theorem stored_congr {tr tr' : Trace W} (h : quiet tr' = quiet tr) : stored tr' = stored tr := by
  rw [← stored_quiet, h, stored_quiet]

theorem given_congr {tr tr' : Trace W} (h : quiet tr' = quiet tr) (n : Nat) :
    given tr' n = given tr n := by
  rw [← given_quiet, h, given_quiet]

theorem takenBy_congr {tr tr' : Trace W} (h : quiet tr' = quiet tr) (n : Nat) :
    takenBy tr' n = takenBy tr n := by
  rw [← takenBy_quiet, h, takenBy_quiet]

theorem opEvs_congr {tr tr' : Trace W} (h : quiet tr' = quiet tr) (o : Nat) :
    opEvs tr' o = opEvs tr o := by
  rw [← opEvs_quiet, h, opEvs_quiet]

theorem Overlapped.congr {tr tr' : Trace W} (h : quiet tr' = quiet tr) {o : Nat}
    (ho : Overlapped tr' o) : Overlapped tr o := by
  obtain ⟨pre, mid, rest, h1, h2, h3⟩ := ho
  rw [h1] at h
  obtain ⟨pre', post', rfl, h4, h5⟩ := quiet_split (e := .callNotify o) rfl h.symm
  rw [quiet_append, quiet_eq post', List.filter_eq_append_iff] at h5
  obtain ⟨mid', rest', rfl, h6, _⟩ := h5
  rw [← quiet_eq] at h6
  have hpm : quiet (pre' ++ mid') = quiet (pre ++ mid) := by rw [quiet_append, quiet_append, h4, h6]
  refine ⟨pre', mid', rest', rfl, fun b hb => h2 b ((mem_of_quiet h6 rfl).1 hb), ?_⟩
  rcases h3 with ⟨o', n, h7, h8, h9, h10⟩ | ⟨n, h7, h8, h9⟩
  · exact .inl ⟨o', n, h7, (mem_of_quiet hpm rfl).2 h8, (mem_of_quiet hpm rfl).2 h9,
      fun b hb => h10 b ((mem_of_quiet h4 rfl).1 hb)⟩
  · exact .inr ⟨n, (mem_of_quiet hpm rfl).2 h7, (mem_of_quiet hpm rfl).2 h8,
      fun hf => h9 ((mem_of_quiet h4 rfl).1 hf)⟩

theorem SerialNotify.congr {tr tr' : Trace W} (h : quiet tr' = quiet tr) (hs : SerialNotify tr) :
    SerialNotify tr' := by
  intro pre o post o' h1 h2
  rw [h1] at h
  obtain ⟨pre', post', h3, h4, _⟩ := quiet_split (e := .callNotify o) rfl h.symm
  obtain ⟨b, hb⟩ := hs pre' o post' o' h3 ((mem_of_quiet h4 rfl).2 h2)
  exact ⟨b, (mem_of_quiet h4 rfl).1 hb⟩

theorem OneAtATime.congr {tr tr' : Trace W} (h : quiet tr' = quiet tr) (hs : OneAtATime tr) :
    OneAtATime tr' :=
  ⟨hs.1.congr h, fun n h1 h2 => hs.2 n ((mem_of_quiet h rfl).1 h1) ((mem_of_quiet h rfl).1 h2)⟩

/-! ## Who accesses a node -/

/-- The call `o` has begun to dequeue node `n`, which was not freed then unless by a timeout, and
has done nothing else since. -/
def Dequeuing (tr : Trace W) (o n : Nat) : Prop :=
  ∃ a b, tr = a ++ .deq o n :: b ∧ (.free n ∈ a → .giveUp n ∈ a) ∧ opEvs b o = []

theorem FExec.dequeuing {tr : Trace W} {f : FState W} (h : FExec c tr f) {o t : Nat}
    (hh : f.half = some (o, t)) : Dequeuing tr o t := by
  induction h with
  | init => cases hh
  | @step tr f f' act evs h hs ih =>
    obtain ⟨tr', hsim⟩ := h.sim
    have lift : ∀ act : Act W, (∀ o t spur, f.half = some (o, t) → act ≠ .op o spur) →
        (Queue.step c f.q act).map (fun r => ((⟨r.1, f.half⟩ : FState W), r.2)) = some (f', evs) →
        Dequeuing (tr ++ evs) o t := by
      intro act ha hm
      cases hq : Queue.step c f.q act with
      | none => rw [hq] at hm; cases hm
      | some r =>
        rw [hq] at hm
        cases hm
        obtain ⟨_, _, h1⟩ := hsim.other ha hq
        obtain ⟨a, b, rfl, h0, h2⟩ := ih hh
        refine ⟨a, b ++ r.2, by simp, h0, ?_⟩
        have h3 := h1 o t hh
        unfold opEvs at h2 ⊢
        rw [List.filter_append, h2, List.nil_append, List.filter_eq_nil_iff]
        intro e he
        simpa using h3 e he
    cases act with
    | op o' spur =>
      simp only [fstep] at hs
      split at hs
      · rename_i o2 t2 hh2
        split at hs
        · cases hs; cases hh
        · rename_i ho
          refine lift (.op o' spur) ?_ hs
          intro o3 t3 sp h2 h3
          rw [hh2] at h2
          cases h2; cases h3
          exact ho rfl
      · rename_i hh2
        split at hs
        · rename_i ns t2 hp ht
          simp only [Option.some.injEq] at hs
          obtain ⟨h1, h2, _⟩ := hsim.swap hh2 hp ht hs
          rw [hh] at h2
          cases h2
          refine ⟨tr ++ [.touch (.op o) t], [], by rw [h1]; simp, fun hf => ?_, rfl⟩
          have he : f.abs = f.q := by unfold FState.abs; rw [hh2]
          have e1 := hsim.exec.inv.rep.tail
          rw [he, ht] at e1
          have e4 : t ∈ queueOf tr' := List.mem_of_getLast? e1.symm
          simp only [List.mem_append, List.mem_singleton, reduceCtorEq, or_false] at hf ⊢
          exact (mem_of_quiet hsim.eq rfl).1
            (hsim.exec.freed_waiting e4 ((mem_of_quiet hsim.eq rfl).2 hf))
        · exact lift (.op o' spur) (fun o t sp h2 => by rw [hh2] at h2; cases h2) hs
    | start n v => exact lift (.start n v) (fun _ _ _ _ h3 => by cases h3) hs
    | cont n v => exact lift (.cont n v) (fun _ _ _ _ h3 => by cases h3) hs
    | drop n => exact lift (.drop n) (fun _ _ _ _ h3 => by cases h3) hs
    | giveUp n => exact lift (.giveUp n) (fun _ _ _ _ h3 => by cases h3) hs
    | notify o => exact lift (.notify o) (fun _ _ _ _ h3 => by cases h3) hs
    | close o => exact lift (.close o) (fun _ _ _ _ h3 => by cases h3) hs
    | node n spur => exact lift (.node n spur) (fun _ _ _ _ h3 => by cases h3) hs

/-- What is known of an access to a node: the node is waiting, or its owner accesses it, or a
call accesses it that is in the middle of dequeuing it. -/
def TouchOk (pre : Trace W) (t : Tid) (n : Nat) : Prop :=
  (n ∈ queueOf pre ∧ (.free n ∈ pre → .giveUp n ∈ pre)) ∨ (t = .node n ∧ .free n ∉ pre) ∨
    ∃ o, t = .op o ∧ Dequeuing pre o n

theorem FExec.touchOk {tr : Trace W} {f : FState W} (h : FExec c tr f) {pre post : Trace W} {t : Tid}
    {n : Nat} (htr : tr = pre ++ .touch t n :: post) : TouchOk pre t n := by
  induction h generalizing post with
  | init => simp at htr
  | @step tr f f' act evs h hs ih =>
    obtain ⟨tr', hsim⟩ := h.sim
    rcases append_split htr with ⟨post', _, h1⟩ | ⟨e1, h1, rfl⟩
    · exact ih h1
    -- the access is in the last step
    have lift : ∀ act : Act W, (∀ o t spur, f.half = some (o, t) → act ≠ .op o spur) →
        (Queue.step c f.q act).map (fun r => ((⟨r.1, f.half⟩ : FState W), r.2)) = some (f', evs) →
        TouchOk (tr ++ e1) t n := by
      intro act ha hm
      cases hq : Queue.step c f.q act with
      | none => rw [hq] at hm; cases hm
      | some r =>
        rw [hq] at hm
        cases hm
        obtain ⟨_, h2, _⟩ := hsim.other ha hq
        have h3 := h2.exec.evOk (tr' ++ e1) (.touch t n) post (by rw [h1]; simp)
        have h4 : quiet (tr' ++ e1) = quiet (tr ++ e1) := by
          rw [quiet_append, quiet_append, hsim.eq]
        rcases h3 with ⟨h5, h6⟩ | ⟨h5, h6⟩
        · refine .inl ⟨queueOf_congr h4 ▸ h5, fun hf => ?_⟩
          exact (mem_of_quiet h4 rfl).1 (h6 ((mem_of_quiet h4 rfl).2 hf))
        · exact .inr (.inl ⟨h5, fun hf => h6 ((mem_of_quiet h4 rfl).2 hf)⟩)
    cases act with
    | op o' spur =>
      simp only [fstep] at hs
      split at hs
      · rename_i o2 t2 hh2
        split at hs
        · rename_i ho
          subst ho
          have g := hsim.gap _ _ hh2
          rw [g.rest] at hs
          cases hs
          cases e1 with
          | nil =>
            simp only [List.nil_append, List.cons.injEq, Event.touch.injEq] at h1
            obtain ⟨⟨rfl, rfl⟩, _⟩ := h1
            rw [List.append_nil]
            exact .inr (.inr ⟨o2, rfl, h.dequeuing hh2⟩)
          | cons x e1 =>
            simp only [List.cons_append, List.cons.injEq] at h1
            obtain ⟨rfl, h1⟩ := h1
            cases hp : (f.q.list.node t2).prev with
            | none => rw [hp] at h1; simp at h1
            | some p =>
              rw [hp] at h1
              cases e1 with
              | cons y e1 => simp at h1
              | nil =>
                simp only [Option.toList_some, List.map_cons, List.map_nil, List.nil_append,
                  List.cons.injEq, Event.touch.injEq] at h1
                obtain ⟨⟨rfl, rfl⟩, _⟩ := h1
                -- the predecessor is waiting
                have e3 := ((hsim.rep _ _ hh2).links (queueOf tr') t2 [] rfl).1
                rw [hp] at e3
                have e4 : p ∈ queueOf tr' := List.mem_of_getLast? e3.symm
                have e5 : quiet tr' = quiet (tr ++ [Event.touch (.op o2) t2]) := by
                  rw [quiet_append, hsim.eq]; simp [quiet]
                refine .inl ⟨queueOf_congr e5 ▸ e4, fun hf => ?_⟩
                exact (mem_of_quiet e5 rfl).1
                  (hsim.exec.freed_waiting e4 ((mem_of_quiet e5 rfl).2 hf))
        · rename_i ho
          refine lift (.op o' spur) ?_ hs
          intro o3 t3 sp h2 h3
          rw [hh2] at h2
          cases h2; cases h3
          exact ho rfl
      · rename_i hh2
        split at hs
        · rename_i ns t2 hp ht
          simp only [Option.some.injEq] at hs
          obtain ⟨h2, _, _⟩ := hsim.swap hh2 hp ht hs
          rw [h2] at h1
          have e6 : e1 = [] ∧ t = .op o' ∧ n = t2 := by
            cases e1 with
            | nil =>
              simp only [List.nil_append, List.cons.injEq, Event.touch.injEq] at h1
              exact ⟨rfl, h1.1.1.symm, h1.1.2.symm⟩
            | cons x e1 =>
              cases e1 with
              | nil => simp at h1
              | cons y e1 => simp at h1
          obtain ⟨rfl, rfl, rfl⟩ := e6
          have he : f.abs = f.q := by unfold FState.abs; rw [hh2]
          have e1 := hsim.exec.inv.rep.tail
          rw [he, ht] at e1
          have e4 : n ∈ queueOf tr' := List.mem_of_getLast? e1.symm
          rw [List.append_nil]
          refine .inl ⟨queueOf_congr hsim.eq ▸ e4, fun hf => ?_⟩
          exact (mem_of_quiet hsim.eq rfl).1
            (hsim.exec.freed_waiting e4 ((mem_of_quiet hsim.eq rfl).2 hf))
        · exact lift (.op o' spur) (fun o t sp h2 => by rw [hh2] at h2; cases h2) hs
    | start n v => exact lift (.start n v) (fun _ _ _ _ h3 => by cases h3) hs
    | cont n v => exact lift (.cont n v) (fun _ _ _ _ h3 => by cases h3) hs
    | drop n => exact lift (.drop n) (fun _ _ _ _ h3 => by cases h3) hs
    | giveUp n => exact lift (.giveUp n) (fun _ _ _ _ h3 => by cases h3) hs
    | notify o => exact lift (.notify o) (fun _ _ _ _ h3 => by cases h3) hs
    | close o => exact lift (.close o) (fun _ _ _ _ h3 => by cases h3) hs
    | node n spur => exact lift (.node n spur) (fun _ _ _ _ h3 => by cases h3) hs

/-! ## Giving up -/

theorem no_giveUp_touch (t : Tid) (ns : List Nat) (n : Nat) :
    Event.giveUp (W := W) n ∉ ns.map (Event.touch t) := by simp

/-- Giving up frees the frame at once. -/
theorem step_giveUp {s s' : State W} {act : Act W} {evs e1 e2 : Trace W} {n : Nat}
    (h : step c s act = some (s', evs)) (he : evs = e1 ++ .giveUp n :: e2) : e2 = [.free n] := by
  obtain ⟨t, p, st, lk, l, b, rx, rfl, ht⟩ := step_tr h
  have hm : Event.giveUp n ∈ evs := by rw [he]; simp
  cases ht
  case giveUp n' hp =>
    cases e1 with
    | nil => simp at he; obtain ⟨rfl, rfl⟩ := he; rfl
    | cons x e1 => cases e1 <;> simp at he
  all_goals first
    | (exfalso; simp at hm; done)
    | (exfalso; simp [deqEvents] at hm; revert hm; split <;> simp)

theorem FExec.giveUp_free {tr : Trace W} {f : FState W} (h : FExec c tr f) {pre post : Trace W} {n : Nat}
    (htr : tr = pre ++ .giveUp n :: post) : ∃ p, post = .free n :: p := by
  induction h generalizing post with
  | init => simp at htr
  | @step tr f f' act evs h hs ih =>
    obtain ⟨tr', hsim⟩ := h.sim
    rcases append_split htr with ⟨post', h0, h1⟩ | ⟨e1, h1, _⟩
    · obtain ⟨p, rfl⟩ := ih h1
      exact ⟨p ++ evs, by rw [h0]; simp⟩
    have lift : ∀ act : Act W,
        (Queue.step c f.q act).map (fun r => ((⟨r.1, f.half⟩ : FState W), r.2)) = some (f', evs) →
        ∃ p, post = .free n :: p := by
      intro act hm
      cases hq : Queue.step c f.q act with
      | none => rw [hq] at hm; cases hm
      | some r =>
        rw [hq] at hm
        cases hm
        exact ⟨[], step_giveUp hq h1⟩
    cases act with
    | op o' spur =>
      simp only [fstep] at hs
      split at hs
      · rename_i o2 t2 hh2
        split at hs
        · have g := hsim.gap _ _ hh2
          rename_i ho
          subst ho
          rw [g.rest] at hs
          cases hs
          have : Event.giveUp (W := W) n ∈ Event.touch (.op o2) t2 ::
              (f.q.list.node t2).prev.toList.map (.touch (.op o2)) := by
            exact (congrArg (Event.giveUp n ∈ ·) h1).mpr (by simp)
          simp at this
        · exact lift (.op o' spur) hs
      · rename_i hh2
        split at hs
        · rename_i ns t2 hp ht
          simp only [Option.some.injEq] at hs
          obtain ⟨h2, _, _⟩ := hsim.swap hh2 hp ht hs
          have : Event.giveUp n ∈ evs := by rw [h1]; simp
          rw [h2] at this
          simp at this
        · exact lift (.op o' spur) hs
    | start n v => exact lift (.start n v) hs
    | cont n v => exact lift (.cont n v) hs
    | drop n => exact lift (.drop n) hs
    | giveUp n => exact lift (.giveUp n) hs
    | notify o => exact lift (.notify o) hs
    | close o => exact lift (.close o) hs
    | node n spur => exact lift (.node n spur) hs

/-- A node whose owner gave up does not come into the list again. -/
theorem ExecM.giveUp_queue {tr : Trace W} {s : State W} (h : Exec c tr s) {p1 p2 p3 : Trace W} {n : Nat}
    (htr : tr = p1 ++ .giveUp n :: (p2 ++ p3)) (h1 : n ∈ queueOf (p1 ++ .giveUp n :: p2)) :
    n ∈ queueOf p1 := by
  have hok := h.evOk
  have hpre : p1 ++ .giveUp n :: p2 <+: tr := ⟨p3, by rw [htr]; simp⟩
  obtain ⟨a, v, b, h2, h3⟩ := (mem_queueOf (hok.prefix hpre)).1 h1
  rcases append_split h2 with ⟨post', h5, h6⟩ | ⟨e1, h5, h6⟩
  · rw [mem_queueOf (hok.prefix ⟨_, htr.symm⟩)]
    exact ⟨a, v, post', h6, fun e he => h3 e (by rw [h5]; simp [he])⟩
  · cases e1 with
    | nil => simp at h5
    | cons x e1 =>
      exfalso
      simp only [List.cons_append, List.cons.injEq] at h5
      obtain ⟨rfl, h5⟩ := h5
      have htr2 : tr = (p1 ++ .giveUp n :: e1) ++ .enq n v :: (b ++ p3) := by
        rw [htr, h5]; simp
      exact (hok _ _ _ htr2).2.1 (h.giveUp_free htr2 (by simp) (by simp))

theorem FExec.giveUp_queue {tr : Trace W} {f : FState W} (h : FExec c tr f) {p1 p2 p3 : Trace W} {n : Nat}
    (htr : tr = p1 ++ .giveUp n :: (p2 ++ p3)) (h1 : n ∈ queueOf (p1 ++ .giveUp n :: p2)) :
    n ∈ queueOf p1 := by
  obtain ⟨tr', hs⟩ := h.sim
  have hq := hs.eq
  rw [htr] at hq
  obtain ⟨p1', post', h2, h3, h4⟩ := quiet_split (e := .giveUp n) rfl hq
  rw [quiet_append, quiet_eq post', List.filter_eq_append_iff] at h4
  obtain ⟨p2', p3', rfl, h5, _⟩ := h4
  rw [← quiet_eq] at h5
  rw [← queueOf_congr h3]
  refine hs.exec.giveUp_queue (p2 := p2') (p3 := p3') h2 ?_
  rw [queueOf_congr (tr := p1 ++ .giveUp n :: p2)]
  · exact h1
  · rw [quiet_append, quiet_append, quiet_cons rfl, quiet_cons rfl, h3, h5]

end Thingbuf.Queue
