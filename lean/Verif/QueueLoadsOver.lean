import Verif.QueueLoadsInv
import Verif.QueueLoadsSpec

/-!
# When a `notify` of the wait queue does nothing, with plain loads that may be out of date

Helper lemmas for `QueueLoadsProps`.
-/

namespace Thingbuf.Queue

variable {W : Type} {c : Config W}

theorem Took.append {tr evs : Trace W} {t : Tid} (h : Took tr t) : Took (tr ++ evs) t := by
  cases t with
  | op o => obtain ⟨h1, n, h2⟩ := h; exact ⟨by simp [h1], n, by simp [h2]⟩
  | node n => exact ⟨by simp [h.1], by simp [h.2]⟩

theorem Unordered.append {l : LState W} {tr evs : Trace W} {o : Nat} (h : Unordered l tr o) : Unordered l (tr ++ evs) o := by
  obtain ⟨pre, mid, rest, h1, h2, h3, h4⟩ := h
  exact ⟨pre, mid, rest ++ evs, by simp [h1], h2, h3, h4⟩

theorem Unordered.called {l : LState W} {tr : Trace W} {o : Nat} (h : Unordered l tr o) : Event.callNotify o ∈ tr := by
  obtain ⟨pre, mid, rest, h1, _⟩ := h
  simp [h1]

theorem ExecM.notAsserted {b : Bool} {tr : Trace W} {s : State W} (h : ExecM b c tr s) {o : Nat}
    (hp : (s.pc (.op o)).inNotify = true) : Event.assertFailed (.op o) ∉ tr := by
  have ho := h.opHist o
  rw [← mem_opEvs (o := o) rfl]
  generalize s.pc (.op o) = p at hp ho
  unfold OpHist at ho
  split at ho <;> simp_all [PC.inNotify]

theorem ExecM.unordered {b : Bool} {tr : Trace W} {s : State W} (h : ExecM b c tr s) {o : Nat}
    (hp : (s.pc (.op o)).inNotify = true) {l : LState W} {t : Tid} (hne : t ≠ .op o) (ht : Took tr t) (hb : t ∉ l.before o) :
    Unordered l tr o := by
  obtain ⟨pre, mid, htr⟩ := List.append_of_mem (h.called hp)
  have h1 := h.notReturned hp
  have h2 := h.notAsserted hp
  refine ⟨pre, mid, [], by simpa using htr, fun b hm => h1 b (by rw [htr]; simp [hm]), fun hm => h2 (by rw [htr]; simp [hm]),
    t, hne, ?_, hb⟩
  have hm : ∀ e, e ∈ tr → e ≠ .callNotify o → e ∈ pre ++ mid := by
    intro e he hn
    rw [htr] at he
    simpa [hn] using he
  cases t with
  | op o' => exact ⟨hm _ ht.1 (by simpa using hne), ht.2.imp fun n hn => hm _ hn (by simp)⟩
  | node n => exact ⟨hm _ ht.1 (by simp), hm _ ht.2 (by simp)⟩

/-! ## How an execution goes on -/

/-- The steps of `LExec`. -/
inductive LTr (c : Config W) (l : LState W) : LState W → Trace W → Prop where
  | notify (o : Nat) (as : List Tid) (has : ∀ t ∈ as, (l.q.pc t).ended = true) (hpc : l.q.pc (.op o) = .off)
      (hrx : l.q.rxGone = false) :
      LTr c l { l with
        q := { l.q.goto (.op o) .nLoad with borrows := o :: l.q.borrows }
        view := fun u => if u = .op o then as.foldl (fun v t => v.join (l.view t)) (l.view u) else l.view u
        before := fun p => if p = o then as else l.before p } [.callNotify o]
  | load (a : Act W) (x : Loc) (i : Nat) (s' : State W) (evs : Trace W) (hna : ∀ o, a ≠ .notify o)
      (hp : (l.q.pc a.tid).plain a.tid = some x) (hi : l.view a.tid x ≤ i) (hi' : i ≤ (l.word x).top)
      (hs : step c (l.q.see ((l.word x).msg i) x) a = some (s', evs)) : LTr c l (l.loaded a.tid x i s') evs
  | sync (a : Act W) (s' : State W) (evs : Trace W) (hna : ∀ o, a ≠ .notify o) (hp : (l.q.pc a.tid).plain a.tid = none)
      (hs : step c l.q a = some (s', evs)) : LTr c l (l.synced a.tid s') evs

theorem lstep_tr {l l' : LState W} {act : LAct W} {evs : Trace W} (hs : lstep c l act = some (l', evs)) :
    LTr c l l' evs := by
  cases act with
  | notify o as =>
    simp only [lstep] at hs
    split at hs
    · rename_i has
      simp only [Option.map_eq_some_iff, Prod.exists, Prod.mk.injEq] at hs
      obtain ⟨s', evs', h1, rfl, rfl⟩ := hs
      simp only [Queue.step] at h1
      split at h1
      · split at h1 <;> rename_i hrx <;> cases h1
        exact .notify o as (by simpa using has) (by assumption) (by simpa using hrx)
      · cases h1
    · cases hs
  | act a i =>
    have hna : ∀ o, a ≠ .notify o := by rintro o rfl; cases hs
    have hs' : (match (l.q.pc a.tid).plain a.tid with
      | some x =>
        if l.view a.tid x ≤ i ∧ i ≤ (l.word x).top then
          (Queue.step c (l.q.see ((l.word x).msg i) x) a).map fun r => (l.loaded a.tid x i r.1, r.2)
        else none
      | none => (Queue.step c l.q a).map fun r => (l.synced a.tid r.1, r.2)) = some (l', evs) := by
      cases a <;> first | exact hs | cases hs
    clear hs
    split at hs'
    · rename_i x hp
      split at hs'
      · rename_i hi
        simp only [Option.map_eq_some_iff, Prod.exists, Prod.mk.injEq] at hs'
        obtain ⟨s', evs', h1, rfl, rfl⟩ := hs'
        exact .load a x i s' _ hna hp hi.1 hi.2 h1
      · cases hs'
    · rename_i hp
      simp only [Option.map_eq_some_iff, Prod.exists, Prod.mk.injEq] at hs'
      obtain ⟨s', evs', h1, rfl, rfl⟩ := hs'
      exact .sync a s' _ hna hp h1

/-- Calls that have ended do nothing. -/
theorem Tr.not_ended {s : State W} {t : Tid} {p : PC W} {st : QSt} {lk : Option Tid} {li : WList W} {b : List Nat} {rx : Bool}
    {evs : Trace W} (ht : Tr c s t p st lk li b rx evs) : (s.pc t).ended = false := by
  cases ht <;> (try (simp_all [PC.ended]; done))
  rename_i ha
  generalize s.pc t = y at *
  cases ha <;> rfl

theorem foldl_join_ge {l : LState W} {x : Loc} {t : Tid} {as : List Tid} (v : View) (h : t ∈ as) :
    l.view t x ≤ as.foldl (fun v t => v.join (l.view t)) v x := by
  have mono : ∀ (as : List Tid) (v : View), v x ≤ as.foldl (fun v t => v.join (l.view t)) v x := by
    intro as
    induction as with
    | nil => intro v; exact Nat.le_refl _
    | cons u as ih =>
      intro v
      exact Nat.le_trans (Nat.le_max_left (v x) (l.view u x)) (ih (v.join (l.view u)))
  induction as generalizing v with
  | nil => cases h
  | cons u as ih =>
    rcases List.mem_cons.1 h with rfl | h
    · exact Nat.le_trans (Nat.le_max_right (v x) (l.view t x)) (mono as (v.join (l.view t)))
    · exact ih _ h

/-- The calls that `o` knows to have ended have ended, and `o` knows what they knew. -/
theorem LExec.before {tr : Trace W} {l : LState W} (h : LExec c tr l) (o : Nat) :
    ∀ t ∈ l.before o, (l.q.pc t).ended = true ∧ ∀ x, l.view t x ≤ l.view (.op o) x := by
  induction h with
  | init => simp [LState.init]
  | @step tr l l' act evs h hs ih =>
    obtain ⟨hx, hl⟩ := h.sim
    have hlt := lstep_tr hs
    clear hs
    cases hlt with
    | notify o0 as has hpc hrx =>
      intro t ht
      simp only at ht ⊢
      by_cases ho : o = o0
      · subst ho
        simp only [if_true] at ht ⊢
        have h1 := has t ht
        have hne : t ≠ .op o := by rintro rfl; rw [hpc] at h1; cases h1
        refine ⟨by simpa [State.goto, hne] using h1, fun x => ?_⟩
        simp only [hne, if_false]
        exact foldl_join_ge _ ht
      · simp only [ho, if_false] at ht
        have h1 := ih t ht
        have hne : t ≠ .op o0 := by rintro rfl; rw [hpc] at h1; cases h1.1
        have hne' : Tid.op o ≠ .op o0 := by simpa using ho
        refine ⟨by simpa [State.goto, hne] using h1.1, fun x => ?_⟩
        simp only [hne, hne', if_false]
        exact h1.2 x
    | load a x i s' evs hna hp hi hi' hs =>
      intro t ht
      have h1 := ih t ht
      obtain ⟨h2, h3⟩ := hl.load_sim hx hp hi hi' hs
      have hne : t ≠ a.tid := by
        rintro rfl
        have := h1.1
        generalize l.q.pc a.tid = y at this hp
        cases y <;> simp [PC.ended, PC.plain] at this hp
      refine ⟨by simpa only [LState.loaded, h3.pc t hne] using h1.1, fun y => ?_⟩
      simp only [LState.loaded, hne, if_false]
      refine Nat.le_trans (h1.2 y) ?_
      split
      · rename_i he
        rw [he]
        show _ ≤ if y = x then i else l.view a.tid y
        split
        · rename_i he'; rw [he']; exact hi
        · exact Nat.le_refl _
      · exact Nat.le_refl _
    | sync a s' evs hna hp hs =>
      intro t ht
      have h1 := ih t ht
      obtain ⟨p, st, lk, li, b, rx, rfl, htr⟩ := step_tr' hs
      have hne : t ≠ a.tid := by
        rintro rfl
        have := htr.not_ended
        rw [h1.1] at this; cases this
      refine ⟨by simpa [LState.synced, State.after, hne] using h1.1, fun y => ?_⟩
      simp only [LState.synced, hne, if_false]
      refine Nat.le_trans (h1.2 y) ?_
      split
      · rename_i he
        unfold LState.newView
        rw [he]
        split
        · exact Nat.le_trans (hl.vTop _ y) (Word.write_top _ _)
        · split
          · exact Nat.le_max_left _ _
          · exact Nat.le_refl _
      · exact Nat.le_refl _

/-- "waiting" was overwritten by a call that took a node, or by `close`. -/
theorem LExec.overwritten {tr : Trace W} {l : LState W} (h : LExec c tr l) :
    ∀ j, j < (l.word .st).top → (l.word .st).msg j = .waiting → (l.word .st).msg (j + 1) = .closed ∨
      ∃ t, Took tr t ∧ j + 1 ≤ l.view t .st := by
  induction h with
  | init => simp [LState.init, Word.new]
  | @step tr l l' act evs h hs ih =>
    obtain ⟨hx, hl⟩ := h.sim
    have hlt := lstep_tr hs
    clear hs
    cases hlt with
    | notify o0 as has hpc hrx =>
      intro j hj hm
      rcases ih j hj hm with h1 | ⟨t, h1, h2⟩
      · exact .inl h1
      · refine .inr ⟨t, h1.append, ?_⟩
        simp only
        have hne : t ≠ .op o0 := by
          rintro rfl
          have h3 := hx.opHist o0
          rw [hpc] at h3
          have := (mem_opEvs (o := o0) rfl).2 h1.1
          rw [h3] at this; cases this
        simp only [hne, if_false]; exact h2
    | load a x i s' evs hna hp hi hi' hs =>
      intro j hj hm
      rcases ih j hj hm with h1 | ⟨t, h1, h2⟩
      · exact .inl h1
      · refine .inr ⟨t, h1.append, Nat.le_trans h2 ?_⟩
        simp only [LState.loaded]
        split
        · rename_i he; subst he
          show _ ≤ if Loc.st = x then i else l.view a.tid .st
          split
          · rename_i he; rw [he]; exact hi
          · exact Nat.le_refl _
        · exact Nat.le_refl _
    | sync a s' evs hna hp hs =>
      intro j hj hm
      have hmono : ∀ t, l.view t .st ≤ (l.synced a.tid s').view t .st := by
        intro t
        simp only [LState.synced]
        split
        · rename_i he
          unfold LState.newView
          rw [he]
          split
          · exact Nat.le_trans (hl.vTop _ _) (Word.write_top _ _)
          · split
            · exact Nat.le_max_left _ _
            · exact Nat.le_refl _
        · exact Nat.le_refl _
      rcases Nat.lt_or_ge j (l.word .st).top with h1 | h1
      · have hm' : (l.word .st).msg j = .waiting := by
          simp only [LState.synced] at hm
          rw [Word.write_old _ _ (by omega)] at hm; exact hm
        rcases ih j h1 hm' with h2 | ⟨t, h2, h3⟩
        · left
          simp only [LState.synced]
          rw [Word.write_old _ _ h1]; exact h2
        · exact .inr ⟨t, h2.append, Nat.le_trans h3 (hmono t)⟩
      · have hj' : j + 1 ≤ ((l.word .st).write (s'.get .st)).top := hj
        rcases Word.write_cases _ _ hj' with h2 | ⟨h2, h3⟩
        · omega
        · have htop : ((l.word .st).write (s'.get .st)).top = (l.word .st).top + 1 := by
            unfold Word.write; rw [if_neg h3]
          have hjt : j = (l.word .st).top := by omega
          subst hjt
          have hm' : l.q.st = .waiting := by
            simp only [LState.synced] at hm
            rw [Word.write_old _ _ (Nat.le_refl _), hl.cur] at hm; exact hm
          rw [hl.cur] at h3
          have h3' : s'.st ≠ l.q.st := h3
          have hview : (l.synced a.tid s').view a.tid .st = (l.word .st).top + 1 := by
            simp only [LState.synced, if_true]
            unfold LState.newView
            rw [if_pos (.inl h3), htop]
          obtain ⟨p, st, lk, li, b, rx, hs', htr⟩ := step_tr' hs
          have hst : s'.st = st := by rw [hs']; rfl
          have hg := hx.inv.good htr
          have hf := hx.inv.stFacts htr
          rcases hf.leave hm' (by rw [← hst, ← hm']; exact h3') with ⟨_, h4⟩ | h4
          · left
            simp only [LState.synced]
            rw [h2, Word.write_cur]
            simp only [State.get]; rw [hst, h4]
          · right
            refine ⟨a.tid, ?_, by rw [hview]; exact Nat.le_refl _⟩
            rw [hst, hm'] at h3'
            generalize a.tid = t at *
            have hnst := fun o => (hx.nStoreSt o).2
            have hop := fun o => hx.opHist o
            have hnl := fun n => hx.nodeLife n
            clear hview hmono htr hs' hf ih hs hp
            have hcrit := (hx.inv.lockC t).1 h4
            cases hg <;> (try (exact absurd hm' h3'.symm)) <;> (try (simp_all [PC.crit]; done))
            case remEmpty n hpc _ _ =>
              have := hnl n
              rw [hpc] at this
              exact ⟨by simp [this.2.1], by simp [this.2.2.2]⟩
            case nStoreEmpty o w hpc hq =>
              cases w with
              | none => exact absurd hm' (hnst o hpc)
              | some y =>
                have := hop o
                rw [hpc] at this
                obtain ⟨n, v⟩ := y
                refine ⟨?_, n, ?_⟩
                · rw [List.mem_append, ← mem_opEvs (o := o) rfl, this]; simp
                · rw [List.mem_append, ← mem_opEvs (o := o) rfl, this]; simp

/-! ## A `notify` that saw "waiting" -/

/-- The state says "waiting": somebody waits, or is about to, or a call that has not ended took the last node. -/
theorem ExecM.waiting_took {bm : Bool} {tr : Trace W} {s : State W} (h : ExecM bm c tr s) (hw : s.st = .waiting) :
    queueOf tr ≠ [] ∨ Filling s ∨ ∃ t, Took tr t ∧ (s.pc t).loose = true := by
  rcases h.inv.wait hw with h1 | ⟨t, h1, h2⟩
  · exact .inl h1
  · right
    generalize hp : s.pc t = p at h2
    cases t with
    | node n =>
      have hl := h.nodeLife n
      have hn := h.inv.node n
      rw [hp] at hl hn
      cases p <;> simp [PC.loose] at h2
      · exact .inl ⟨n, _, .inl hp⟩
      · exact .inl ⟨n, _, .inr hp⟩
      · exact .inr ⟨.node n, ⟨hl.2.1, hl.2.2.2⟩, by rw [hp]; rfl⟩
      · exact hn.elim
    | op o' =>
      have ho := h.opHist o'
      rw [hp] at ho
      cases p <;> simp [PC.loose] at h2
      · exact ho.elim
      · exact ho.elim
      · exact ho.elim
      · rename_i w
        cases w with
        | none => exact absurd hw ((h.nStoreSt o').2 hp)
        | some x =>
          refine .inr ⟨.op o', ⟨?_, x.1, ?_⟩, by rw [hp]; rfl⟩
          · rw [← mem_opEvs (o := o') rfl, ho]; simp
          · rw [← mem_opEvs (o := o') rfl, ho]; simp

/-- What is known when a `notify` saw the state "waiting". -/
def OverOkL (l : LState W) (tr : Trace W) (o : Nat) : Prop :=
  match l.q.pc (.op o) with
  | .nLoop .waiting | .nLock _ | .nMatch _ => queueOf tr ≠ [] ∨ Filling l.q ∨ Unordered l tr o
  | .nStore none | .nUnlock none => Unordered l tr o
  | _ => True

theorem PC.loose_not_ended {p : PC W} (h : p.loose = true) : p.ended = false := by
  cases p <;> simp [PC.loose] at h <;> rfl

theorem LExec.over_step {tr : Trace W} {l : LState W} (h : LExec c tr l) {a : Act W} {s' : State W} {evs : Trace W}
    (hs : Queue.step c l.q a = some (s', evs)) {o : Nat} (hn : (l.q.pc (.op o)).inNotify = true) (hnst : ∀ w, s'.pc (.op o) ≠ .nStore w)
    (hi : queueOf tr ≠ [] ∨ Filling l.q ∨ Unordered l tr o) :
    queueOf (tr ++ evs) ≠ [] ∨ Filling s' ∨ Unordered l (tr ++ evs) o := by
  have hx := h.exec
  have h' := hx.step hs
  have hc := hx.called hn
  have hb := h.before o
  obtain ⟨t, p, st, lk, li, b, rx, hs', ht, hg⟩ := hx.good hs
  have hnt : t ∉ l.before o := fun hm => by
    have := ht.not_ended
    rw [(hb t hm).1] at this; cases this
  rcases hi with hi | hi | hi
  · rw [queueOf_append]
    rcases hg.queue_change with h1 | h1 | ⟨o', x, h1, h2⟩ | ⟨n, h1, h2⟩ | h1
    · exact .inl (by rw [h1]; exact hi)
    · exact .inl h1
    · right; right
      subst h1 h2 hs'
      have ho := h'.opHist o'
      have ho' : opEvs (tr ++ evs) o' = [.callNotify o', .deq o' x.1] := by simpa [State.after, OpHist] using ho
      have hne : Tid.op o' ≠ .op o := by
        rintro he
        cases he
        exact hnst (some x) (by simp [State.after])
      refine h'.unordered (t := .op o') ?_ hne ⟨?_, x.1, ?_⟩ hnt
      · simpa [State.after, hne.symm] using hn
      · rw [← mem_opEvs (o := o') rfl, ho']; simp
      · rw [← mem_opEvs (o := o') rfl, ho']; simp
    · right; right
      subst h1 h2 hs'
      have hl := h'.nodeLife n
      simp [State.after, NodeLife, -List.mem_append] at hl
      exact h'.unordered (t := .node n) (by simpa [State.after] using hn) (by simp) ⟨hl.2.1, hl.2.2.2⟩ hnt
    · have := hx.inv.borrow (.op o) hn
      simp [hx.inv.rxB (hx.inv.clos t h1)] at this
  · obtain ⟨n, v, hf⟩ := hi
    by_cases hto : t = .node n
    · subst hto
      clear ht
      cases hg <;> simp_all
      case set => right; left; exact ⟨n, v, .inr (by simp [State.after])⟩
      case enq => left; simp [queueOf_append, qstep]
    · right; left
      refine ⟨n, v, ?_⟩
      rw [hs']
      simp only [State.after]
      rw [if_neg (fun h => hto h.symm)]
      exact hf
  · exact .inr (.inr hi.append)

/-- The same when a plain load is made. -/
theorem Filling.loaded {l : LState W} {t : Tid} {s' : State W} {q q' : List Nat} {x : Loc} (hd : Loaded l t s' q q')
    (hp : (l.q.pc t).plain t = some x) {st : QSt} {li : WList W} (hf : Filling l.q) : Filling { s' with st := st, list := li } := by
  obtain ⟨n, v, hf⟩ := hf
  have hne : Tid.node n ≠ t := by
    rintro rfl
    rcases hf with hf | hf <;> rw [hf] at hp <;> simp [PC.plain] at hp
  exact ⟨n, v, by simp only; rw [hd.pc _ hne]; exact hf⟩

theorem LExec.overOk {tr : Trace W} {l : LState W} (h : LExec c tr l) (o : Nat) : OverOkL l tr o := by
  induction h with
  | init => simp [LState.init, State.init, OverOkL]
  | @step tr l l' act evs h hs ih =>
    obtain ⟨hx, hl⟩ := h.sim
    have hb := h.before o
    have hlt := lstep_tr hs
    clear hs
    cases hlt with
    | notify o0 as has hpc hrx =>
      by_cases ho : o = o0
      · subst ho; simp [OverOkL, State.goto]
      · have hpc' : ({ l.q.goto (.op o0) .nLoad with borrows := o0 :: l.q.borrows } : State W).pc (.op o) = l.q.pc (.op o) := by
          simp [State.goto, ho]
        have hfill : Filling l.q → Filling { l.q.goto (.op o0) .nLoad with borrows := o0 :: l.q.borrows } := by
          rintro ⟨n, v, hf⟩
          exact ⟨n, v, by simpa [State.goto] using hf⟩
        have hun : ∀ v, Unordered l tr o → Unordered { l with
            q := { l.q.goto (.op o0) .nLoad with borrows := o0 :: l.q.borrows }
            view := v
            before := fun p => if p = o0 then as else l.before p } (tr ++ [.callNotify o0]) o := by
          intro v hu
          obtain ⟨p1, p2, p3, h1, h2, h3, t, h4, h5, h6⟩ := hu.append (evs := [Event.callNotify o0])
          exact ⟨p1, p2, p3, h1, h2, h3, t, h4, h5, by simpa [ho] using h6⟩
        have hq : queueOf (tr ++ [Event.callNotify o0]) = queueOf tr := by simp [queueOf_append, qstep]
        unfold OverOkL at ih ⊢
        simp only
        rw [hpc', hq]
        generalize l.q.pc (.op o) = p0 at ih ⊢
        split at ih <;> (try (exact (ih.imp_right (Or.imp hfill (hun _))))) <;> (try (exact hun _ ih))
        trivial
    | load a x i s' evs hna hp hi hi' hs =>
      obtain ⟨h2, h3⟩ := hl.load_sim hx hp hi hi' hs
      have hun : Unordered l tr o → Unordered (l.loaded a.tid x i s') (tr ++ evs) o := fun hu => hu.append
      by_cases ho : Tid.op o = a.tid
      · have hop := hx.opHist o
        rw [← ho] at hp h3
        have hpc : l.q.pc (.op o) = .nLoad := by
          cases hpc : l.q.pc (.op o) <;> rw [hpc] at hp hop <;> simp [PC.plain, OpHist] at hp hop ⊢
        have hx' : x = .st := by rw [hpc] at hp; simpa [PC.plain] using hp.symm
        subst hx'
        have hpc' : s'.pc (.op o) = .nLoop ((l.word .st).msg i) := by
          cases a <;> simp [Act.tid] at ho
          · rename_i o2; subst ho; simp [Queue.step, State.see, hpc] at hs
          · rename_i o2; subst ho; simp [Queue.step, State.see, hpc] at hs
          · rename_i o2 _; subst ho
            simp only [Queue.step, opStep, State.see, hpc, Option.some.injEq, Prod.mk.injEq] at hs
            rw [← hs.1]; simp [State.goto]
        have hcl := hx.called (o := o) (by rw [hpc]; rfl)
        unfold OverOkL
        simp only [LState.loaded]
        rw [hpc', h3.queue]
        cases hm : (l.word .st).msg i <;> simp only
        rcases Nat.lt_or_ge i (l.word .st).top with h4 | h4
        · right; right
          refine hun ?_
          rcases h.overwritten i h4 hm with h5 | ⟨t, h5, h6⟩
          · exact absurd (hl.closed _ h4 h5) (hx.inv.notClosed (t := .op o) (by rw [hpc]; rfl))
          · rw [← ho] at hi
            refine hx.unordered (by rw [hpc]; rfl) (t := t) ?_ h5 ?_
            · rintro rfl; omega
            · intro h7
              have := (hb t h7).2 .st
              omega
        · have hit : i = (l.word .st).top := by omega
          have hw : l.q.st = .waiting := by have := hl.cur .st; rw [← hit, hm] at this; exact this.symm
          rcases hx.waiting_took hw with h5 | h5 | ⟨t, h5, h6⟩
          · exact .inl h5
          · right; left; exact h5.loaded h3 hp
          · right; right
            refine hun (hx.unordered (by rw [hpc]; rfl) (t := t) ?_ h5 ?_)
            · rintro rfl; rw [hpc] at h6; cases h6
            · intro h7
              have := (hb t h7).1
              rw [PC.loose_not_ended h6] at this; cases this
      · have hpc' : (l.loaded a.tid x i s').q.pc (.op o) = l.q.pc (.op o) := h3.pc _ ho
        have hfill : Filling l.q → Filling (l.loaded a.tid x i s').q := fun hf => hf.loaded h3 hp
        unfold OverOkL at ih ⊢
        rw [hpc', h3.queue]
        generalize l.q.pc (.op o) = p0 at ih ⊢
        split at ih <;> (try (exact (ih.imp_right (Or.imp hfill hun)))) <;> (try (exact hun ih))
        trivial
    | sync a s' evs hna hp hs =>
      have hstep := h.over_step hs (o := o)
      have hun : Unordered l (tr ++ evs) o → Unordered (l.synced a.tid s') (tr ++ evs) o := id
      obtain ⟨p, st, lk, li, b, rx, rfl, ht⟩ := step_tr' hs
      have hg := hx.inv.good ht
      show OverOkL (l.synced a.tid (l.q.after a.tid p st lk li b rx)) (tr ++ evs) o
      generalize a.tid = t at *
      by_cases hto : t = .op o
      · subst hto
        have hcl := hx.called (o := o)
        have hex := fun t u ht hu => hx.inv.excl (t := t) (u := u) ht hu
        simp only [OverOkL, LState.synced, State.after, if_true] at hstep ⊢
        unfold OverOkL at ih
        clear ht
        cases hg
        case nLoad hpc => rw [hpc] at hp; cases hp
        case nAgain q0 hq hpc =>
          cases hst : l.q.st <;> simp only
          rw [hpc] at hcl
          refine hstep (by rw [hpc]; rfl) (by simp) ?_
          rcases hx.waiting_took hst with h5 | h5 | ⟨t, h5, h6⟩
          · exact .inl h5
          · exact .inr (.inl h5)
          · right; right
            refine hx.unordered (by rw [hpc]; rfl) (t := t) ?_ h5 ?_
            · rintro rfl; rw [hpc] at h6; cases h6
            · intro h7
              have := (hb t h7).1
              rw [PC.loose_not_ended h6] at this; cases this
        case nSlow hpc =>
          rw [hpc] at ih
          exact hstep (by rw [hpc]; rfl) (by simp) ih
        case acqNotify hlk hpc =>
          rw [hpc] at ih
          exact hstep (by rw [hpc]; rfl) (by simp) ih
        case deqNone hq hd hst hpc =>
          rw [hpc] at ih
          rcases ih with ih | ⟨n, v, ih⟩ | ih
          · exact absurd hq ih
          · have := hex (.op o) (.node n) (by rw [hpc]; rfl)
              (by rcases ih with ih | ih <;> rw [ih] <;> rfl)
            cases this
          · exact hun ih.append
        case nStoreEmpty w hq hpc =>
          rw [hpc] at ih
          cases w with
          | none => exact hun (Unordered.append ih)
          | some y => trivial
        case nStoreSkip w hq hpc =>
          rw [hpc] at ih
          cases w with
          | none => exact hun (Unordered.append ih)
          | some y => trivial
        all_goals trivial
      · have hpc : (l.q.after t p st lk li b rx).pc (.op o) = l.q.pc (.op o) := by
          simp only [State.after]; rw [if_neg (fun h => hto h.symm)]
        unfold OverOkL at ih ⊢
        simp only [LState.synced]
        rw [hpc] at hstep ⊢
        generalize l.q.pc (.op o) = p0 at ih hstep ⊢
        split at ih
        · exact hstep rfl (by simp) ih
        · exact hstep rfl (by simp) ih
        · exact hstep rfl (by simp) ih
        · exact hun ih.append
        · exact hun ih.append
        · trivial

theorem LExec.fail_unordered {tr : Trace W} {l : LState W} (h : LExec c tr l) {o : Nat} {q : QSt}
    (hpc : l.q.pc (.op o) = .nMatch q) (hq : queueOf tr = []) : Unordered l tr o := by
  have h1 := h.overOk o
  unfold OverOkL at h1
  rw [hpc] at h1
  rcases h1 with h1 | ⟨n, v, h1⟩ | h1
  · exact absurd hq h1
  · have := h.exec.inv.excl (t := .op o) (u := .node n) (by rw [hpc]; rfl) (by rcases h1 with h1 | h1 <;> rw [h1] <;> rfl)
    cases this
  · exact h1

theorem LExec.store_unordered {tr : Trace W} {l : LState W} (h : LExec c tr l) {o : Nat}
    (hpc : l.q.pc (.op o) = .nStore none) : Unordered l tr o := by
  have h1 := h.overOk o
  unfold OverOkL at h1
  rw [hpc] at h1
  exact h1

theorem LExec.unlock_unordered {tr : Trace W} {l : LState W} (h : LExec c tr l) {o : Nat}
    (hpc : l.q.pc (.op o) = .nUnlock none) : Unordered l tr o := by
  have h1 := h.overOk o
  unfold OverOkL at h1
  rw [hpc] at h1
  exact h1

/-! ## The stored notification -/

theorem ExecM.waking_step {bm : Bool} {tr : Trace W} {s s' : State W} (h : ExecM bm c tr s) {act : Act W} {evs : Trace W}
    (hs : Queue.step c s act = some (s', evs)) {X : Prop} (hover : ∀ o, s.pc (.op o) = .nStore none → X)
    (ih : stored tr = true → s.st = .waking ∨ s.st = .closed ∨ (c.debug = false ∧ X)) :
    stored (tr ++ evs) = true → s'.st = .waking ∨ s'.st = .closed ∨ (c.debug = false ∧ X) := by
  obtain ⟨t, p, st, lk, l, bo, rx, rfl, ht, hg⟩ := h.good hs
  have hh := fun o => h.opHist o
  have hnst := fun o => h.nStoreSt o
  rw [stored_append]
  simp only [State.after]
  intro h1
  clear ht hs
  cases hg
  case nStoreEmpty o w hpc hq =>
    cases w with
    | none =>
      have h3 := hh o
      rw [hpc] at h3
      exact .inr (.inr ⟨h3.2, hover o hpc⟩)
    | some x =>
      have h2 := (hnst o).1 x hpc
      rcases ih h1 with h3 | h3 | h3
      · simp [h2] at h3
      · simp [h2] at h3
      · exact .inr (.inr h3)
  case loopSet =>
    rcases ih h1 with h3 | h3 | h3
    · simp_all
    · simp_all
    · exact .inr (.inr h3)
  case remEmpty =>
    rcases ih h1 with h3 | h3 | h3
    · simp_all
    · simp_all
    · exact .inr (.inr h3)
  all_goals first
    | exact .inl rfl
    | exact .inr (.inl rfl)
    | (exfalso; simp [sstep] at h1; done)
    | (try rw [stored_touch] at h1
       simp only [List.foldl, sstep] at h1
       exact ih h1)

/-- `before` of a call changes only when the call is made. -/
theorem LExec.before_step {tr evs : Trace W} {l l' : LState W} (h : LExec c tr l) (ht : LTr c l l' evs) {pre : Trace W}
    (hpre : pre <+: tr) {o : Nat} (hu : Unordered l pre o) : Unordered l' pre o := by
  cases ht with
  | notify o0 as has hpc hrx =>
    have h1 := hu.called
    obtain ⟨p1, p2, p3, h2, h3, h4, t, h6, h7, h8⟩ := hu
    refine ⟨p1, p2, p3, h2, h3, h4, t, h6, h7, ?_⟩
    have hne : o ≠ o0 := by
      rintro rfl
      have h5 := h.exec.opHist o
      rw [hpc] at h5
      have := (mem_opEvs (o := o) rfl).2 (hpre.subset h1)
      rw [h5] at this; cases this
    simpa [hne] using h8
  | load => exact hu
  | sync => exact hu

theorem LExec.waking_of_stored {tr : Trace W} {l : LState W} (h : LExec c tr l) :
    stored tr = true → l.q.st = .waking ∨ l.q.st = .closed ∨ (c.debug = false ∧ ∃ o, Unordered l tr o) := by
  induction h with
  | init => simp [stored]
  | @step tr l l' act evs h hs ih =>
    have hlt := lstep_tr hs
    clear hs
    have hmono := fun (o : Nat) => h.before_step hlt (o := o) (List.prefix_refl tr)
    have hfin : (stored (tr ++ evs) = true → l'.q.st = .waking ∨ l'.q.st = .closed ∨ (c.debug = false ∧ ∃ o, Unordered l tr o)) →
        stored (tr ++ evs) = true → l'.q.st = .waking ∨ l'.q.st = .closed ∨ (c.debug = false ∧ ∃ o, Unordered l' (tr ++ evs) o) :=
      fun hf h1 => (hf h1).imp_right (Or.imp_right (And.imp_right (fun ⟨o, h2⟩ => ⟨o, (hmono o h2).append⟩)))
    apply hfin
    obtain ⟨hx, hl⟩ := h.sim
    cases hlt with
    | notify o0 as has hpc hrx =>
      rw [stored_append]
      exact ih
    | load a x i s' evs hna hp hi hi' hs =>
      obtain ⟨h2, -⟩ := hl.load_sim hx hp hi hi' hs
      rcases h2 with h2 | ⟨rfl, -⟩
      · exact hx.waking_step h2 (fun o ho => ⟨o, h.store_unordered ho⟩) ih
      · rw [List.append_nil]; exact ih
    | sync a s' evs hna hp hs => exact hx.waking_step hs (fun o ho => ⟨o, h.store_unordered ho⟩) ih

/-! ## Events -/

/-- What is known of a `notify` that does nothing. -/
def NEvOk (c : Config W) (U : Trace W → Nat → Prop) (pre : Trace W) (e : Event W) : Prop :=
  match e with
  | .assertFailed t => ∃ o, t = .op o ∧ c.debug = true ∧ U pre o
  | .retNotify o false => .store o ∈ pre ∨ (c.debug = false ∧ U pre o)
  | .enq _ _ => stored pre = true → (∃ o, .closing o ∈ pre) ∨ (c.debug = false ∧ ∃ o, U pre o)
  | _ => True

theorem nEvOk_touches {U : Trace W → Nat → Prop} {tr : Trace W} (h : AllOk (NEvOk c U) tr) (t : Tid) (ns : List Nat) :
    AllOk (NEvOk c U) (tr ++ ns.map (.touch t)) := by
  induction ns generalizing tr with
  | nil => simpa using h
  | cons m ns ih =>
    have h1 := ih (tr := tr ++ [.touch t m]) (h.snoc (show NEvOk c U tr (.touch t m) from trivial))
    simpa using h1

theorem ExecM.nEvOk_step {bm : Bool} {tr : Trace W} {s s' : State W} (h : ExecM bm c tr s) {act : Act W} {evs : Trace W}
    (hs : Queue.step c s act = some (s', evs)) {U : Trace W → Nat → Prop} (happ : ∀ tr evs o, U tr o → U (tr ++ evs) o)
    (hfail : ∀ o q, s.pc (.op o) = .nMatch q → queueOf tr = [] → U tr o) (hunl : ∀ o, s.pc (.op o) = .nUnlock none → U tr o)
    (hst : stored tr = true → s.st = .waking ∨ s.st = .closed ∨ (c.debug = false ∧ ∃ o, U tr o))
    (ih : AllOk (NEvOk c U) tr) : AllOk (NEvOk c U) (tr ++ evs) := by
  obtain ⟨t, p, st, lk, l, bo, rx, rfl, ht, hg⟩ := h.good hs
  clear ht hs
  have hi := h.inv
  cases hg
  case enq n v ns hpc hq hns =>
    have hloc := hi.loc (.node n)
    rw [hpc] at hloc
    simp only [LocalSt] at hloc
    have h1 := nEvOk_touches ih (.node n) ns
    suffices h2 : NEvOk c U (tr ++ ns.map (.touch (.node n))) (.enq n v) by
      have h3 := h1.append2 h2 (show NEvOk c U _ (.retStart n .wait) from trivial)
      simpa using h3
    intro hsd
    rw [stored_append, ← List.append_nil (ns.map _), stored_touch] at hsd
    rcases hst hsd with h3 | h3 | ⟨h3, o, h4⟩
    · rw [h3] at hloc; simp at hloc
    · obtain ⟨o, ho⟩ := h.closing_iff.1 h3
      exact .inl ⟨o, List.mem_append_left _ ho⟩
    · exact .inr ⟨h3, o, happ _ _ _ h4⟩
  case rem n ns hpc hns =>
    have := (nEvOk_touches ih (.node n) ns).snoc (show NEvOk c U _ (.rem n) from trivial)
    simpa using this
  case deq o x v q' ns hpc hq hv hns hst =>
    have := (nEvOk_touches ih (.op o) ns).snoc (show NEvOk c U _ (.deq o x) from trivial)
    simpa using this
  case cDeq o x v q' ns hpc hq hv hns hst =>
    have := (nEvOk_touches ih (.op o) ns).snoc (show NEvOk c U _ (.deq o x) from trivial)
    simpa using this
  case nFast o q0 hpc hq hst => exact ih.append2 trivial (.inl (by simp))
  case deqFail o hpc hq hd hst => exact ih.snoc ⟨o, rfl, hd, hfail o _ hpc hq⟩
  case nUnlockNone o hpc =>
    have h2 := h.opHist o
    rw [hpc] at h2
    exact ih.snoc (.inr ⟨h2.2, hunl o hpc⟩)
  case nWake o n v hpc => exact ih.append2 trivial trivial
  all_goals first
    | (rw [List.append_nil]; exact ih)
    | exact ih.snoc trivial
    | exact ih.append2 trivial trivial

theorem LExec.nEvOk {tr : Trace W} {l : LState W} (h : LExec c tr l) : AllOk (NEvOk c (Unordered l)) tr := by
  induction h with
  | init => exact AllOk.nil
  | @step tr l l' act evs h hs ih =>
    have h' := h.step hs
    have hlt := lstep_tr hs
    clear hs
    have hmono := fun (pre : Trace W) (hp : pre <+: tr) (o : Nat) => h.before_step hlt (o := o) hp
    have ih' : AllOk (NEvOk c (Unordered l')) tr := by
      intro pre e post htr
      have h1 := ih pre e post htr
      have hp : pre <+: tr := ⟨_, htr.symm⟩
      unfold NEvOk at h1 ⊢
      split at h1
      · obtain ⟨o, h2, h3, h4⟩ := h1
        exact ⟨o, h2, h3, hmono pre hp o h4⟩
      · exact h1.imp_right (And.imp_right (hmono pre hp _))
      · exact fun h2 => (h1 h2).imp_right (And.imp_right fun ⟨o, h3⟩ => ⟨o, hmono pre hp o h3⟩)
      · trivial
    obtain ⟨hx, hl⟩ := h.sim
    have key : ∀ {a : Act W} {s' : State W}, Queue.step c l.q a = some (s', evs) →
        AllOk (NEvOk c (Unordered l')) (tr ++ evs) := fun hs =>
      hx.nEvOk_step hs (fun _ _ _ hu => hu.append)
        (fun o q h1 h2 => hmono tr (List.prefix_refl tr) o (h.fail_unordered h1 h2))
        (fun o h1 => hmono tr (List.prefix_refl tr) o (h.unlock_unordered h1))
        (fun h1 => (h.waking_of_stored h1).imp_right (Or.imp_right (And.imp_right
          (fun ⟨o, h2⟩ => ⟨o, hmono tr (List.prefix_refl tr) o h2⟩)))) ih'
    cases hlt with
    | notify o0 as has hpc hrx => exact ih'.snoc trivial
    | load a x i s' evs hna hp hi hi' hs =>
      obtain ⟨h2, -⟩ := hl.load_sim hx hp hi hi' hs
      rcases h2 with h2 | ⟨rfl, -⟩
      · exact key h2
      · rw [List.append_nil]; exact ih'
    | sync a s' evs hna hp hs => exact key hs

theorem not_mem_closePairs (o o' : Nat) (l : List (Nat × W)) : .callNotify o' ∉ closePairs o l := by
  induction l with
  | nil => simp [closePairs]
  | cons x l ih => simpa [closePairs] using ih

/-- A call that has ended has returned, or its assertion has failed. -/
theorem ExecM.ended {b : Bool} {tr : Trace W} {s : State W} (h : ExecM b c tr s) {o : Nat} (hp : (s.pc (.op o)).ended = true)
    (hc : .callNotify o ∈ tr) : (∃ b, .retNotify o b ∈ tr) ∨ .assertFailed (.op o) ∈ tr := by
  have ho := h.opHist o
  have hm := fun e (he : Event.byOp (W := W) e = some o) => (mem_opEvs (tr := tr) (o := o) he)
  have hc' := (hm _ rfl).2 hc
  generalize s.pc (.op o) = p at hp ho
  cases p <;> simp [PC.ended] at hp
  case done =>
    rcases ho with ho | ⟨n, v, ho⟩ | ⟨ho, _⟩ | ⟨l, ho⟩
    · exact .inl ⟨false, (hm _ rfl).1 (by simp [ho])⟩
    · exact .inl ⟨true, (hm _ rfl).1 (by simp [ho])⟩
    · exact .inl ⟨false, (hm _ rfl).1 (by simp [ho])⟩
    · exfalso
      rw [ho] at hc'
      simp [not_mem_closePairs] at hc'
  case gone => exact ho.elim
  case panicked => exact .inr ((hm _ rfl).1 (by simp [ho.1]))

/-- A call is made once. -/
theorem OpHist.tail {o : Nat} {p : PC W} {es : Trace W} (ho : OpHist c o p es) : .callNotify o ∉ es.tail := by
  intro hm
  cases p
  case done => rcases ho with ho | ⟨n, v, ho⟩ | ⟨ho, _⟩ | ⟨l, ho⟩ <;> rw [ho] at hm <;> simp [not_mem_closePairs] at hm
  case cLoop => obtain ⟨l, ho⟩ := ho; rw [ho] at hm; simp [not_mem_closePairs] at hm
  case cWake => obtain ⟨l, ho⟩ := ho; rw [ho] at hm; simp [not_mem_closePairs] at hm
  case nStore w => cases w <;> simp_all [OpHist]
  case nUnlock w => cases w <;> simp_all [OpHist]
  all_goals simp_all [OpHist]

theorem ExecM.callNotify_act {b : Bool} {tr : Trace W} {s s' : State W} (h : ExecM b c tr s) {a : Act W} {evs : Trace W}
    (hs : Queue.step c s a = some (s', evs)) (hna : ∀ o, a ≠ .notify o) (o : Nat) : .callNotify o ∉ evs := by
  intro hm
  obtain ⟨p, st, lk, li, b, rx, rfl, ht⟩ := step_tr' hs
  have hg := h.inv.good ht
  have h1 : a.tid = .op o ∧ s.pc a.tid = .off := by
    clear ht hs
    generalize a.tid = t at *
    cases hg <;> simp_all
  cases a <;> simp only [Act.tid, reduceCtorEq, false_and, Tid.op.injEq] at h1
  · exact hna _ rfl
  · obtain ⟨rfl, h1⟩ := h1
    simp only [Queue.step, h1] at hs
    split at hs
    · split at hs
      · cases hs
      · simp only [Option.some.injEq, Prod.mk.injEq] at hs
        rw [← hs.2] at hm
        simp at hm
    · cases hs
  · obtain ⟨rfl, h1⟩ := h1
    simp [Queue.step, opStep, h1] at hs

/-- The calls that are known to have ended when `notify` is called have ended. -/
theorem LExec.before_ended {tr : Trace W} {l : LState W} (h : LExec c tr l) : ∀ pre o post, tr = pre ++ .callNotify o :: post →
    ∀ o', .op o' ∈ l.before o → .callNotify o' ∈ pre → (∃ b, .retNotify o' b ∈ pre) ∨ .assertFailed (.op o') ∈ pre := by
  induction h with
  | init => intro pre o post h; simp at h
  | @step tr l l' act evs h hs ih =>
    have hlt := lstep_tr hs
    clear hs
    intro pre o post htr
    rcases append_split htr with ⟨post', h1, h2⟩ | ⟨e1, h1, h2⟩
    · have hb : l'.before o = l.before o := by
        cases hlt with
        | notify o0 as has hpc hrx =>
          have hne : o ≠ o0 := by
            rintro rfl
            have h5 := h.exec.opHist o
            rw [hpc] at h5
            have := (mem_opEvs (tr := tr) (o := o) rfl).2 (show Event.callNotify o ∈ tr by rw [h2]; simp)
            rw [h5] at this; cases this
          simp [hne]
        | load => rfl
        | sync => rfl
      rw [hb]
      exact ih pre o post' h2
    · obtain ⟨hx, hl⟩ := h.sim
      have hin : Event.callNotify o ∈ evs := by rw [h1]; simp
      cases hlt with
      | notify o0 as has hpc hrx =>
        cases e1 with
        | cons x e1 => simp at h1
        | nil =>
          simp only [List.nil_append, List.cons.injEq, Event.callNotify.injEq] at h1
          obtain ⟨rfl, -⟩ := h1
          rw [List.append_nil] at h2
          subst h2
          intro o' ho' hc
          simp only [if_true] at ho'
          exact hx.ended (has _ ho') hc
      | load a x i s' evs hna hp hi hi' hs =>
        obtain ⟨h2, -⟩ := hl.load_sim hx hp hi hi' hs
        rcases h2 with h2 | ⟨rfl, -⟩
        · exact absurd hin (hx.callNotify_act h2 hna o)
        · cases hin
      | sync a s' evs hna hp hs => exact absurd hin (hx.callNotify_act hs hna o)

/-- If the `notify` calls are made one after the other, none is disturbed. -/
theorem LExec.not_unordered {tr : Trace W} {l : LState W} (h : LExec c tr l) (h1 : OneAfterTheOther l tr) (o : Nat) :
    ¬ Unordered l tr o := by
  rintro ⟨pre, mid, rest, h2, h3, h4, t, h5, h6, h7⟩
  cases t with
  | node n =>
    refine h1.2 n ?_ ?_
    · rw [h2]; have := h6.1; simp at this ⊢; rcases this with h | h <;> simp [h]
    · rw [h2]; have := h6.2; simp at this ⊢; rcases this with h | h <;> simp [h]
  | op o' =>
    have hne : o' ≠ o := fun he => h5 (by rw [he])
    rcases List.mem_append.1 h6.1 with h8 | h8
    · exact h7 (h1.1 pre o _ o' h2 h8)
    · obtain ⟨a, d, rfl⟩ := List.append_of_mem h8
      have hsp : tr = (pre ++ .callNotify o :: a) ++ .callNotify o' :: (d ++ rest) := by rw [h2]; simp
      have hb := h1.1 _ _ _ o hsp (by simp)
      have hev : opEvs tr o = opEvs pre o ++ .callNotify o :: opEvs (a ++ .callNotify o' :: d ++ rest) o := by
        rw [h2]; simp [opEvs, Event.byOp]
      have hpre : opEvs pre o = [] := by
        have ho := (h.exec.opHist o).tail
        rw [hev] at ho
        cases hx : opEvs pre o with
        | nil => rfl
        | cons x l0 => rw [hx] at ho; simp at ho
      have hnp : ∀ e, Event.byOp (W := W) e = some o → e ∉ pre := fun e he hm => by
        have := (mem_opEvs (tr := pre) (o := o) he).2 hm
        rw [hpre] at this; cases this
      rcases h.before_ended _ _ _ hsp o hb (by simp) with ⟨b, h9⟩ | h9
      · simp only [List.mem_append, List.mem_cons, reduceCtorEq, false_or] at h9
        rcases h9 with h9 | h9
        · exact hnp _ rfl h9
        · exact h3 b (by simp [h9])
      · simp only [List.mem_append, List.mem_cons, reduceCtorEq, false_or] at h9
        rcases h9 with h9 | h9
        · exact hnp _ rfl h9
        · exact h4 (by simp [h9])

end Thingbuf.Queue
