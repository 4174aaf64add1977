import Verif.RelAcqMoves
/-
Every step of the release/acquire machine preserves the invariant.
-/
namespace Thingbuf.RA

variable {w cap : Nat} {V : Type}

/-- The orderings that matter: the slot state is acquired before a slot is claimed, and released when the `Ref`
is dropped. -/
structure Synchronised (o : Orders) : Prop where
  pushSlot : o.pushSlot.acq = true
  popSlot : o.popSlot.acq = true
  dropRef : o.dropRef.rel = true

theorem run_none {o : Orders} {s : RState w V} {a : OpId} {rd wr : Nat} {r : RState w V × List (REv V)}
    (h : o.acc (Params.new w cap) cap (s.pc a) = .none) (hs : s.run o cap a rd wr = some r) :
    ∃ k, runStep (Params.new w cap) cap (s.snap none 0#w) a = some k ∧ r = s.emit a (k.1.pc a) k.2 := by
  simp only [RState.run, h] at hs
  obtain ⟨k, hk, he⟩ := Option.map_eq_some_iff.1 hs
  exact ⟨k, hk, he.symm⟩

theorem run_load {o : Orders} {s : RState w V} {a : OpId} {rd wr : Nat} {r : RState w V × List (REv V)}
    {l : Loc} {od : MOrd}
    (h : o.acc (Params.new w cap) cap (s.pc a) = .load l od) (hs : s.run o cap a rd wr = some r) :
    ∃ m k, s.readMsg a l rd = some m ∧
      runStep (Params.new w cap) cap (s.snap (some l) m.val) a = some k ∧ r = s.doLoad a l m od k := by
  simp only [RState.run, h] at hs
  split at hs
  · cases hs
  · rename_i m hm
    obtain ⟨k, hk, he⟩ := Option.map_eq_some_iff.1 hs
    exact ⟨m, k, hm, hk, he.symm⟩

theorem run_rmw {o : Orders} {s : RState w V} {a : OpId} {rd wr : Nat} {r : RState w V × List (REv V)}
    {l : Loc} {od : MOrd}
    (h : o.acc (Params.new w cap) cap (s.pc a) = .rmw l od) (hs : s.run o cap a rd wr = some r) :
    ∃ m k, s.readMsg a l rd = some m ∧ s.fits l m.ts wr = true ∧
      runStep (Params.new w cap) cap (s.snap (some l) m.val) a = some k ∧ r = s.doRmw a l m od wr k := by
  simp only [RState.run, h] at hs
  split at hs
  · cases hs
  · rename_i m hm
    split at hs
    · rename_i hf
      obtain ⟨k, hk, he⟩ := Option.map_eq_some_iff.1 hs
      exact ⟨m, k, hm, hf, hk, he.symm⟩
    · cases hs

theorem run_cas {o : Orders} {s : RState w V} {a : OpId} {rd wr : Nat} {r : RState w V × List (REv V)}
    {l : Loc} {e : BitVec w} {ok fail : MOrd}
    (h : o.acc (Params.new w cap) cap (s.pc a) = .cas l e ok fail) (hs : s.run o cap a rd wr = some r) :
    ∃ m k, s.readMsg a l rd = some m ∧
      runStep (Params.new w cap) cap (s.snap (some l) m.val) a = some k ∧
      ((m.val = e ∧ s.fits l m.ts wr = true ∧ r = s.doRmw a l m ok wr k) ∨
       (m.val ≠ e ∧ r = s.doLoad a l m fail k)) := by
  simp only [RState.run, h] at hs
  split at hs
  · cases hs
  · rename_i m hm
    split at hs
    · rename_i hv
      split at hs
      · rename_i hf
        obtain ⟨k, hk, he⟩ := Option.map_eq_some_iff.1 hs
        exact ⟨m, k, hm, hk, .inl ⟨hv, hf, he.symm⟩⟩
      · cases hs
    · rename_i hv
      obtain ⟨k, hk, he⟩ := Option.map_eq_some_iff.1 hs
      exact ⟨m, k, hm, hk, .inr ⟨hv, he.symm⟩⟩

theorem Timely.at {tr : List (REv V)} {s : RState w V} (h : Timely w cap tr s) {a : OpId} {op : Op}
    (hp : Pend (evsOf tr) a op) : nRes (evsOf tr) + 2 * cap < s.oldest a + period w cap :=
  h a ⟨⟨_, hp.inv⟩, hp.nret⟩

theorem snap_head (s : RState w V) (v : BitVec w) : (s.snap (some .head) v).head = v := by
  simp [RState.snap]
theorem snap_tail (s : RState w V) (v : BitVec w) : (s.snap (some .tail) v).tail = v := by
  simp [RState.snap]

theorem evsOf_doLoad (s : RState w V) (a : OpId) (l : Loc) (m : Msg w) (o : MOrd)
    (k : State w V × List (Event V)) : evsOf (s.doLoad a l m o k).2 = k.2 := evsOf_stamp ..

theorem Timely.load {tr : List (REv V)} {s : RState w V} {a : OpId} {l : Loc} {m : Msg w} {o : MOrd}
    {k : State w V × List (Event V)} {op : Op}
    (h : Timely w cap (tr ++ (s.doLoad a l m o k).2) (s.doLoad a l m o k).1)
    (hp : Pend (evsOf tr) a op) (hk : k.2 = []) :
    nRes (evsOf tr) + 2 * cap < min (s.oldest a) m.born + period w cap := by
  have := h a
  rw [evsOf_append, evsOf_doLoad, hk, List.append_nil] at this
  have e0 : (s.doLoad a l m o k).1.oldest a = min (s.oldest a) m.born := upd_self ..
  rw [e0] at this
  exact this ⟨⟨_, hp.inv⟩, hp.nret⟩

theorem noAcc_nil : NoAcc ([] : List (Event V)) := noAcc_of rfl
theorem noAcc_ret (a : OpId) (r : Ret) : NoAcc [(Event.ret a r : Event V)] := noAcc_of rfl

/-- A load without events. -/
theorem RInv.silentLoad {tr : List (REv V)} {s : RState w V} {a : OpId} {l : Loc} {m : Msg w} {o : MOrd}
    {k : State w V × List (Event V)} {pc : PC w} {op : Op} (hw : WellSized w cap) (hi : RInv w cap tr s)
    (hk : k.1.pc a = pc) (hk2 : k.2 = [])
    (hp : Pend (evsOf tr) a op) (hn : NonOwner pc) (hpi : pcInv False w cap (evsOf tr) s.core a pc)
    (ha : WordOk w cap (evsOf tr) (s.load a l m o.acq) a pc) :
    RInv w cap (tr ++ (s.doLoad a l m o k).2) (s.doLoad a l m o k).1 := by
  subst hk
  refine hi.doLoad hw ?_ ?_ ?_ ?_ ?_ ?_
  · rw [hk2]; exact .silent a _ op hp hn hpi
  · rw [hk2]; rfl
  · rw [hk2]; rfl
  · rw [hk2]; exact noAcc_nil
  · generalize k.1.pc a = pc at hn
    cases pc <;> first | rfl | exact hn.elim
  · rw [hk2, List.append_nil]; exact ha

/-- What a load of `tail` finds. -/
theorem RInv.tailMsg {tr : List (REv V)} {s : RState w V} (hi : RInv w cap tr s) {a : OpId} {m : Msg w}
    {q : Bool} {rd : Nat} (h : s.readMsg a .tail rd = some m) : ∃ p c, m.val = tailWord w cap p c ∧
      p ≤ nRes (evsOf tr) ∧ (s.load a .tail m q).oldest a ≤ p ∧ (c = true → closedB (evsOf tr) = true) := by
  obtain ⟨c, h1, h2, h3⟩ := hi.mem.tail m (readMsg_spec h).1
  refine ⟨_, c, h1, h2, ?_, h3⟩
  show upd _ _ _ _ ≤ _
  rw [upd_self]
  exact Nat.min_le_right _ _

theorem RInv.headMsg {tr : List (REv V)} {s : RState w V} (hi : RInv w cap tr s) {a : OpId} {m : Msg w}
    {q : Bool} {rd : Nat} (h : s.readMsg a .head rd = some m) : ∃ p, m.val = enc w cap p ∧
      p ≤ nDeq (evsOf tr) ∧ (s.load a .head m q).oldest a ≤ p + cap := by
  obtain ⟨h1, h2, h3⟩ := hi.mem.head m (readMsg_spec h).1
  refine ⟨_, h1, h2, ?_⟩
  show upd _ _ _ _ ≤ _
  rw [upd_self]
  exact Nat.le_trans (Nat.min_le_right _ _) h3

theorem oldest_load (s : RState w V) (a : OpId) (l : Loc) (m : Msg w) (q : Bool) :
    (s.load a l m q).oldest a ≤ s.oldest a := by
  show upd _ _ _ _ ≤ _
  rw [upd_self]
  exact Nat.min_le_left _ _

theorem run_pushStart {o : Orders} {tr : List (REv V)} {s : RState w V} {a : OpId} {rd wr : Nat}
    {r : RState w V × List (REv V)} (hw : WellSized w cap) (hi : RInv w cap tr s)
    (hpc : s.pc a = .pushStart) (hs : s.run o cap a rd wr = some r) : RInv w cap (tr ++ r.2) r.1 := by
  have hp : Pend (evsOf tr) a .push := by have := hi.base.inv.pcs a; rw [show s.core.pc a = _ from hpc] at this; exact this
  obtain ⟨m, k, hm, hk, rfl⟩ := run_load (by rw [hpc]; rfl) hs
  simp only [runStep, pc_snap, hpc, Option.some.injEq] at hk
  subst hk
  exact hi.silentLoad hw (goto_pc_self ..) rfl hp trivial ⟨hp, nofun⟩ (hi.tailMsg hm)

theorem run_pushReload {o : Orders} {tr : List (REv V)} {s : RState w V} {a : OpId} {rd wr : Nat}
    {r : RState w V × List (REv V)} {b : Backoff} (hw : WellSized w cap) (hi : RInv w cap tr s)
    (hpc : s.pc a = .pushReload b) (hs : s.run o cap a rd wr = some r) : RInv w cap (tr ++ r.2) r.1 := by
  have hp : Pend (evsOf tr) a .push := by have := hi.base.inv.pcs a; rw [show s.core.pc a = _ from hpc] at this; exact this
  obtain ⟨m, k, hm, hk, rfl⟩ := run_load (by rw [hpc]; rfl) hs
  simp only [runStep, pc_snap, hpc, Option.some.injEq] at hk
  subst hk
  exact hi.silentLoad hw (goto_pc_self ..) rfl hp trivial ⟨hp, nofun⟩ (hi.tailMsg hm)

theorem run_popStart {o : Orders} {tr : List (REv V)} {s : RState w V} {a : OpId} {rd wr : Nat}
    {r : RState w V × List (REv V)} (hw : WellSized w cap) (hi : RInv w cap tr s)
    (hpc : s.pc a = .popStart) (hs : s.run o cap a rd wr = some r) : RInv w cap (tr ++ r.2) r.1 := by
  have hp : Pend (evsOf tr) a .pop := by have := hi.base.inv.pcs a; rw [show s.core.pc a = _ from hpc] at this; exact this
  obtain ⟨m, k, hm, hk, rfl⟩ := run_load (by rw [hpc]; rfl) hs
  simp only [runStep, pc_snap, hpc, Option.some.injEq] at hk
  subst hk
  exact hi.silentLoad hw (goto_pc_self ..) rfl hp trivial ⟨hp, nofun⟩ (hi.headMsg hm)

theorem run_popReload {o : Orders} {tr : List (REv V)} {s : RState w V} {a : OpId} {rd wr : Nat}
    {r : RState w V × List (REv V)} {b : Backoff} (hw : WellSized w cap) (hi : RInv w cap tr s)
    (hpc : s.pc a = .popReload b) (hs : s.run o cap a rd wr = some r) : RInv w cap (tr ++ r.2) r.1 := by
  have hp : Pend (evsOf tr) a .pop := by have := hi.base.inv.pcs a; rw [show s.core.pc a = _ from hpc] at this; exact this
  obtain ⟨m, k, hm, hk, rfl⟩ := run_load (by rw [hpc]; rfl) hs
  simp only [runStep, pc_snap, hpc, Option.some.injEq] at hk
  subst hk
  exact hi.silentLoad hw (goto_pc_self ..) rfl hp trivial ⟨hp, nofun⟩ (hi.headMsg hm)

theorem run_lenStart {o : Orders} {tr : List (REv V)} {s : RState w V} {a : OpId} {rd wr : Nat}
    {r : RState w V × List (REv V)} (hw : WellSized w cap) (hi : RInv w cap tr s)
    (hpc : s.pc a = .lenStart) (hs : s.run o cap a rd wr = some r) : RInv w cap (tr ++ r.2) r.1 := by
  have hp : Pend (evsOf tr) a .len := by have := hi.base.inv.pcs a; rw [show s.core.pc a = _ from hpc] at this; exact this
  obtain ⟨m, k, hm, hk, rfl⟩ := run_load (by rw [hpc]; rfl) hs
  simp only [runStep, pc_snap, hpc, Option.some.injEq] at hk
  subst hk
  obtain ⟨q, c, e, -⟩ := hi.tailMsg (q := true) hm
  exact hi.silentLoad hw (goto_pc_self ..) rfl hp trivial ⟨hp, nofun⟩ ⟨q, c, e⟩

theorem run_lenHead {o : Orders} {tr : List (REv V)} {s : RState w V} {a : OpId} {rd wr : Nat}
    {r : RState w V × List (REv V)} {t : BitVec w} (hw : WellSized w cap) (hi : RInv w cap tr s)
    (hpc : s.pc a = .lenHead t) (hs : s.run o cap a rd wr = some r) : RInv w cap (tr ++ r.2) r.1 := by
  have hp : Pend (evsOf tr) a .len := by have := hi.base.inv.pcs a; rw [show s.core.pc a = _ from hpc] at this; exact this.1
  have hwd := hi.words a
  rw [hpc] at hwd
  obtain ⟨q, c, rfl⟩ := hwd
  obtain ⟨m, k, hm, hk, rfl⟩ := run_load (by rw [hpc]; rfl) hs
  simp only [runStep, pc_snap, hpc, Option.some.injEq] at hk
  subst hk
  obtain ⟨h, e, -⟩ := hi.headMsg (q := true) hm
  exact hi.silentLoad hw (goto_pc_self ..) rfl hp trivial ⟨hp, nofun⟩ ⟨q, c, h, rfl, e⟩

theorem run_lenTail {o : Orders} {tr : List (REv V)} {s : RState w V} {a : OpId} {rd wr : Nat}
    {r : RState w V × List (REv V)} {t h : BitVec w} (hw : WellSized w cap) (hi : RInv w cap tr s)
    (hpc : s.pc a = .lenTail t h) (hs : s.run o cap a rd wr = some r) : RInv w cap (tr ++ r.2) r.1 := by
  have hp : Pend (evsOf tr) a .len := by have := hi.base.inv.pcs a; rw [show s.core.pc a = _ from hpc] at this; exact this.1
  have hwd := hi.words a
  rw [hpc] at hwd
  obtain ⟨q, c, h, rfl, rfl⟩ := hwd
  obtain ⟨m, k, hm, hk, rfl⟩ := run_load (by rw [hpc]; rfl) hs
  simp only [runStep, pc_snap, hpc] at hk
  split at hk
  · obtain rfl := Option.some.inj hk
    refine hi.doLoad hw ?_ rfl rfl (noAcc_ret _ _) ?_ ?_
    · simp only [goto_pc_self]
      exact .retn a _ _ hp ⟨hp.inv, lenOf_le hw c, nofun⟩
    · simp only [goto_pc_self]; rfl
    · simp only [goto_pc_self]; trivial
  · obtain rfl := Option.some.inj hk
    exact hi.silentLoad hw (goto_pc_self ..) rfl hp trivial hp trivial

theorem run_pushLoop {o : Orders} {tr : List (REv V)} {s : RState w V} {a : OpId} {rd wr : Nat}
    {r : RState w V × List (REv V)} {b : Backoff} {t : BitVec w} (hw : WellSized w cap)
    (ho : Synchronised o) (hi : RInv w cap tr s)
    (hpc : s.pc a = .pushLoop b t) (hs : s.run o cap a rd wr = some r)
    (ht' : Timely w cap (tr ++ r.2) r.1) : RInv w cap (tr ++ r.2) r.1 := by
  have hp : Pend (evsOf tr) a .push := by have := hi.base.inv.pcs a; rw [show s.core.pc a = _ from hpc] at this; exact this.1
  have hwd := hi.words a
  rw [hpc] at hwd
  obtain ⟨q, c, rfl, hq, hol, hcl⟩ := hwd
  have hpos := hw.1
  have hper := period_ge hw
  cases c with
  | true =>
    have hb := (closedBit_tailWord hw q true).2 rfl
    obtain ⟨k, hk, rfl⟩ := run_none (by simp only [hpc, Orders.acc]; rw [if_pos hb]) hs
    simp only [runStep, pc_snap, hpc, Option.some.injEq, pushLoop] at hk
    rw [if_pos hb] at hk
    subst hk
    refine hi.noAccess hw ?_ rfl rfl (noAcc_ret _ _) ?_ ?_
    · simp only [goto_pc_self]
      exact .retn a _ _ hp ⟨closedB_iff.1 (hcl rfl), .inl hp.inv⟩
    · simp only [goto_pc_self]; rfl
    · simp only [goto_pc_self]; trivial
  | false =>
    have hb : ¬ (tailWord w cap q false &&& (Params.new w cap).closed ≠ 0#w) :=
      fun hx => by simpa using (closedBit_tailWord hw q false).1 hx
    obtain ⟨m, k, hm, hk, rfl⟩ := run_load (l := .slot (q % cap)) (od := o.pushSlot) (by
      simp only [hpc, Orders.acc]
      rw [if_neg hb]
      simp only [tailWord_false, idx_enc hw, Nat.mod_lt _ hpos, if_true]) hs
    simp only [runStep, pc_snap, hpc, Option.some.injEq, pushLoop] at hk
    rw [if_neg hb] at hk
    simp only [tailWord_false, idx_enc hw, Nat.mod_lt _ hpos, not_true_eq_false, if_false,
      enc_succ_checked hw] at hk
    have hstv : (s.snap (some (.slot (q % cap))) m.val).st (q % cap) = m.val := if_pos rfl
    rw [hstv] at hk
    split at hk
    · rename_i hst
      subst hk
      have ht2 := ht'.load hp rfl
      refine hi.silentLoad hw (goto_pc_self ..) rfl hp trivial ⟨hp, nofun⟩
        ⟨q, rfl, hq, Nat.le_trans (oldest_load ..) hol, m, ?_, ?_⟩
      · obtain ⟨hmm, -, -⟩ := readMsg_spec hm
        obtain ⟨j, hj⟩ := getElem?_of_mem' hmm
        obtain ⟨i, rfl | rfl⟩ : ∃ i, j = 2 * i ∨ j = 2 * i + 1 := ⟨j / 2, by omega⟩
        · obtain ⟨h1, h2, h3, h4⟩ := hi.mem.even _ (Nat.mod_lt _ hpos) _ _ hj
          rw [hst] at h1
          have hpe := enc_inj hw h1.symm (by omega) (by omega)
          have : i = q / cap := by
            rw [← hpe, Nat.add_mul_div_right _ _ hpos, Nat.div_eq_of_lt (Nat.mod_lt _ hpos)]
            omega
          rw [← this]
          exact hj
        · obtain ⟨h1, -⟩ := hi.mem.odd _ (Nat.mod_lt _ hpos) _ _ hj
          rw [hst] at h1
          exact absurd h1 (enc_ne_enc_succ hw (by simp))
      · rw [ho.pushSlot]
        exact load_acq ..
    · split at hk
      · subst hk
        exact hi.silentLoad hw (goto_pc_self ..) rfl hp trivial ⟨hp, nofun⟩
          ⟨q, rfl, hq, Nat.le_trans (oldest_load ..) hol⟩
      · subst hk
        exact hi.silentLoad hw (goto_pc_self ..) rfl hp trivial hp trivial

theorem run_popLoop {o : Orders} {tr : List (REv V)} {s : RState w V} {a : OpId} {rd wr : Nat}
    {r : RState w V × List (REv V)} {b : Backoff} {t : BitVec w} (hw : WellSized w cap)
    (ho : Synchronised o) (hi : RInv w cap tr s)
    (hpc : s.pc a = .popLoop b t) (hs : s.run o cap a rd wr = some r)
    (ht' : Timely w cap (tr ++ r.2) r.1) : RInv w cap (tr ++ r.2) r.1 := by
  have hp : Pend (evsOf tr) a .pop := by have := hi.base.inv.pcs a; rw [show s.core.pc a = _ from hpc] at this; exact this.1
  have hwd := hi.words a
  rw [hpc] at hwd
  obtain ⟨q, rfl, hq, hol⟩ := hwd
  have hpos := hw.1
  have hper := period_ge hw
  have hle := hi.base.inv.le
  have hge := hi.base.inv.ge
  obtain ⟨m, k, hm, hk, rfl⟩ := run_load (l := .slot (q % cap)) (od := o.popSlot) (by
    simp only [hpc, Orders.acc, idx_enc hw, Nat.mod_lt _ hpos, if_true]) hs
  simp only [runStep, pc_snap, hpc, Option.some.injEq, popLoop] at hk
  simp only [idx_enc hw, Nat.mod_lt _ hpos, not_true_eq_false, if_false,
    enc_succ_checked hw] at hk
  have hstv : (s.snap (some (.slot (q % cap))) m.val).st (q % cap) = m.val := if_pos rfl
  rw [hstv] at hk
  split at hk
  · rename_i hst
    subst hk
    have ht2 := ht'.load hp rfl
    refine hi.silentLoad hw (goto_pc_self ..) rfl hp trivial ⟨hp, nofun⟩
      ⟨q, rfl, hq, Nat.le_trans (oldest_load ..) hol, m, ?_, ?_⟩
    · obtain ⟨hmm, -, -⟩ := readMsg_spec hm
      obtain ⟨j, hj⟩ := getElem?_of_mem' hmm
      obtain ⟨i, rfl | rfl⟩ : ∃ i, j = 2 * i ∨ j = 2 * i + 1 := ⟨j / 2, by omega⟩
      · obtain ⟨h1, -⟩ := hi.mem.even _ (Nat.mod_lt _ hpos) _ _ hj
        rw [hst] at h1
        exact absurd h1.symm (enc_ne_enc_succ hw (by simp))
      · obtain ⟨h1, h2, h3, h4⟩ := hi.mem.odd _ (Nat.mod_lt _ hpos) _ _ hj
        rw [hst] at h1
        have hpe := enc_inj hw (succ_inj h1.symm) (by omega) (by omega)
        have : i = q / cap := by
          rw [← hpe, Nat.add_mul_div_right _ _ hpos, Nat.div_eq_of_lt (Nat.mod_lt _ hpos)]
          omega
        rw [← this]
        exact hj
    · rw [ho.popSlot]
      exact load_acq ..
  · split at hk
    · subst hk
      exact hi.silentLoad hw (goto_pc_self ..) rfl hp trivial ⟨hp, nofun⟩
        ⟨q, rfl, hq, Nat.le_trans (oldest_load ..) hol⟩
    · subst hk
      exact hi.silentLoad hw (goto_pc_self ..) rfl hp trivial hp trivial

theorem pushCas_fail {tr : List (REv V)} {s : RState w V} {a : OpId} {rd : Nat} {od : MOrd}
    {b : Backoff} {t : BitVec w} {m : Msg w} {sp : Bool} (hw : WellSized w cap) (hi : RInv w cap tr s)
    (hpc : s.pc a = .pushCas b t) (hm : s.readMsg a .tail rd = some m) (hne : m.val ≠ t ∨ sp = true) :
    RInv w cap
      (tr ++ (s.doLoad a .tail m od
        (pushCas (Params.new w cap) (s.snap (some .tail) m.val) a b t sp)).2)
      (s.doLoad a .tail m od (pushCas (Params.new w cap) (s.snap (some .tail) m.val) a b t sp)).1 := by
  have hp : Pend (evsOf tr) a .push := by have := hi.base.inv.pcs a; rw [show s.core.pc a = _ from hpc] at this; exact this.1
  have hwd := hi.words a
  rw [hpc] at hwd
  obtain ⟨q, rfl, -⟩ := hwd
  have e : pushCas (Params.new w cap) (s.snap (some .tail) m.val) a b (enc w cap q) sp =
      ((s.snap (some .tail) m.val).goto a (.pushLoop b.spin m.val), []) := by
    unfold pushCas
    simp only [next_enc hw]
    rw [if_neg]
    · rfl
    · rintro ⟨h1, h2⟩
      rcases hne with h | h
      · exact h h1
      · rw [h] at h2; cases h2
  rw [e]
  exact hi.silentLoad hw (goto_pc_self ..) rfl hp trivial ⟨hp, nofun⟩ (hi.tailMsg hm)

theorem popCas_fail {tr : List (REv V)} {s : RState w V} {a : OpId} {rd : Nat} {od : MOrd}
    {b : Backoff} {t : BitVec w} {m : Msg w} {sp : Bool} (hw : WellSized w cap) (hi : RInv w cap tr s)
    (hpc : s.pc a = .popCas b t) (hm : s.readMsg a .head rd = some m) (hne : m.val ≠ t ∨ sp = true) :
    RInv w cap
      (tr ++ (s.doLoad a .head m od
        (popCas (Params.new w cap) (s.snap (some .head) m.val) a b t sp)).2)
      (s.doLoad a .head m od (popCas (Params.new w cap) (s.snap (some .head) m.val) a b t sp)).1 := by
  have hp : Pend (evsOf tr) a .pop := by have := hi.base.inv.pcs a; rw [show s.core.pc a = _ from hpc] at this; exact this.1
  have hwd := hi.words a
  rw [hpc] at hwd
  obtain ⟨q, rfl, -⟩ := hwd
  have e : popCas (Params.new w cap) (s.snap (some .head) m.val) a b (enc w cap q) sp =
      ((s.snap (some .head) m.val).goto a (.popLoop b.spin m.val), []) := by
    unfold popCas
    simp only [next_enc hw]
    rw [if_neg]
    · rfl
    · rintro ⟨h1, h2⟩
      rcases hne with h | h
      · exact h h1
      · rw [h] at h2; cases h2
  rw [e]
  exact hi.silentLoad hw (goto_pc_self ..) rfl hp trivial ⟨hp, nofun⟩ (hi.headMsg hm)

theorem run_pushCas {o : Orders} {tr : List (REv V)} {s : RState w V} {a : OpId} {rd wr : Nat}
    {r : RState w V × List (REv V)} {b : Backoff} {t : BitVec w} (hw : WellSized w cap)
    (hi : RInv w cap tr s) (ht : Timely w cap tr s)
    (hpc : s.pc a = .pushCas b t) (hs : s.run o cap a rd wr = some r) : RInv w cap (tr ++ r.2) r.1 := by
  have hp : Pend (evsOf tr) a .push := by have := hi.base.inv.pcs a; rw [show s.core.pc a = _ from hpc] at this; exact this.1
  have hwd := hi.words a
  rw [hpc] at hwd
  obtain ⟨q, rfl, hq, hol, hh⟩ := hwd
  have hpos := hw.1
  have hper := period_ge hw
  have htm := ht.at hp
  obtain ⟨m, k, hm, hk, ⟨hv, hf, rfl⟩ | ⟨hv, rfl⟩⟩ := run_cas (by rw [hpc]; rfl) hs
  · simp only [runStep, pc_snap, hpc, Option.some.injEq] at hk
    subst hk
    obtain ⟨hmm, -⟩ := readMsg_spec hm
    obtain ⟨hlast, -⟩ := hi.mem.rmw_last (.inr rfl) hmm hf
    have htl : m.val = tailWord w cap (nRes (evsOf tr)) (closedB (evsOf tr)) := by
      rw [← last_of_getLast? hlast]; exact hi.base.inv.tail
    rw [htl, ← tailWord_false] at hv
    obtain ⟨he, hcl⟩ := tailWord_inj hw hv
    have hqe := enc_inj hw he (by omega) (by omega)
    have e : pushCas (Params.new w cap) (s.snap (some .tail) m.val) a b (enc w cap q) false =
        ({ (s.snap (some .tail) m.val).goto a (.pushInit (enc w cap q)) with tail := enc w cap (q + 1) },
          [.reserve a (q % cap)]) := by
      unfold pushCas
      simp only [next_enc hw, idx_enc hw]
      rw [if_pos ⟨by rw [snap_tail, htl, hv]; rfl, trivial⟩]
    rw [e]
    exact hi.reserve hw hmm hf hqe.symm hp hcl hh (goto_pc_self ..) rfl rfl
  · simp only [runStep, pc_snap, hpc, Option.some.injEq] at hk
    subst hk
    exact pushCas_fail hw hi hpc hm (.inl hv)

theorem run_popCas {o : Orders} {tr : List (REv V)} {s : RState w V} {a : OpId} {rd wr : Nat}
    {r : RState w V × List (REv V)} {b : Backoff} {t : BitVec w} (hw : WellSized w cap)
    (hi : RInv w cap tr s) (ht : Timely w cap tr s)
    (hpc : s.pc a = .popCas b t) (hs : s.run o cap a rd wr = some r) : RInv w cap (tr ++ r.2) r.1 := by
  have hp : Pend (evsOf tr) a .pop := by have := hi.base.inv.pcs a; rw [show s.core.pc a = _ from hpc] at this; exact this.1
  have hwd := hi.words a
  rw [hpc] at hwd
  obtain ⟨q, rfl, hq, hol, hh⟩ := hwd
  have hpos := hw.1
  have hper := period_ge hw
  have hle := hi.base.inv.le
  have hge := hi.base.inv.ge
  have htm := ht.at hp
  obtain ⟨m, k, hm, hk, ⟨hv, hf, rfl⟩ | ⟨hv, rfl⟩⟩ := run_cas (by rw [hpc]; rfl) hs
  · simp only [runStep, pc_snap, hpc, Option.some.injEq] at hk
    subst hk
    obtain ⟨hmm, -⟩ := readMsg_spec hm
    obtain ⟨hlast, -⟩ := hi.mem.rmw_last (.inl rfl) hmm hf
    have htl : m.val = enc w cap (nDeq (evsOf tr)) := by
      rw [← last_of_getLast? hlast]; exact hi.base.inv.head
    rw [htl] at hv
    have hqe := enc_inj hw hv (by omega) (by omega)
    have e : popCas (Params.new w cap) (s.snap (some .head) m.val) a b (enc w cap q) false =
        ({ (s.snap (some .head) m.val).goto a (.popHeld (q % cap) (enc w cap (q + cap))) with
            head := enc w cap (q + 1) },
          [.dequeue a (q % cap) (s.core.val (q % cap)), .ret a .popped]) := by
      unfold popCas
      simp only [next_enc hw, idx_enc hw, enc_add_gen hw]
      rw [if_pos ⟨by rw [snap_head, htl, hv], trivial⟩]
      rfl
    rw [e]
    exact hi.dequeue hw hmm hf hqe.symm hp hh (goto_pc_self ..) rfl rfl
  · simp only [runStep, pc_snap, hpc, Option.some.injEq] at hk
    subst hk
    exact popCas_fail hw hi hpc hm (.inl hv)

theorem run_pushHead {o : Orders} {tr : List (REv V)} {s : RState w V} {a : OpId} {rd wr : Nat}
    {r : RState w V × List (REv V)} {b : Backoff} {t : BitVec w} (hw : WellSized w cap)
    (hi : RInv w cap tr s) (ht : Timely w cap tr s)
    (hpc : s.pc a = .pushHead b t) (hs : s.run o cap a rd wr = some r) : RInv w cap (tr ++ r.2) r.1 := by
  have hp : Pend (evsOf tr) a .push := by have := hi.base.inv.pcs a; rw [show s.core.pc a = _ from hpc] at this; exact this.1
  have hwd := hi.words a
  rw [hpc] at hwd
  obtain ⟨q, rfl, hq, hol⟩ := hwd
  have hpos := hw.1
  have hper := period_ge hw
  have hle := hi.base.inv.le
  have hge := hi.base.inv.ge
  have htm := ht.at hp
  obtain ⟨m, k, hm, hf, hk, rfl⟩ := run_rmw (by rw [hpc]; rfl) hs
  simp only [runStep, pc_snap, hpc, Option.some.injEq] at hk
  obtain ⟨hmm, -⟩ := readMsg_spec hm
  obtain ⟨hlast, -⟩ := hi.mem.rmw_last (.inl rfl) hmm hf
  have hval : m.val = s.core.head := (last_of_getLast? hlast).symm
  have hhd : m.val = enc w cap (nDeq (evsOf tr)) := hval.trans hi.base.inv.head
  have hcore : ∀ k : State w V × List (Event V), k.1.head = m.val →
      (s.doRmw a .head m o.pushHead wr k).1.core = s.core.goto a (k.1.pc a) := by
    intro k hk
    unfold RState.doRmw
    simp only
    rw [core_put_head, core_emit, core_load, cell, hk, hval]
    rfl
  unfold pushHead at hk
  have hsn := snap_head s m.val
  generalize s.snap (some .head) m.val = S at hk hsn
  rw [hsn, hhd, enc_add_gen hw] at hk
  split at hk
  · rename_i he
    have hqe := enc_inj hw he (by omega) (by omega)
    subst hk
    refine hi.doRmw hw (.inl rfl) hmm hf (.retn a _ _ hp ⟨hp.inv, by omega, nofun⟩) ?_ rfl rfl
      (noAcc_ret _ _) ?_ nofun (fun _ => hsn.trans hhd) ?_
    · rw [hcore _ hsn, goto_pc_self]
    · rw [goto_pc_self]; rfl
    · rw [goto_pc_self]; trivial
  · subst hk
    refine hi.doRmw hw (.inl rfl) hmm hf (.silent a (.pushReload b.spin) _ hp trivial hp) ?_ rfl rfl
      noAcc_nil ?_ nofun (fun _ => hsn.trans hhd) ?_
    · rw [hcore _ hsn, goto_pc_self]
    · rw [goto_pc_self]; rfl
    · rw [goto_pc_self]; trivial

theorem run_popTail {o : Orders} {tr : List (REv V)} {s : RState w V} {a : OpId} {rd wr : Nat}
    {r : RState w V × List (REv V)} {b : Backoff} {t : BitVec w} (hw : WellSized w cap)
    (hi : RInv w cap tr s) (ht : Timely w cap tr s)
    (hpc : s.pc a = .popTail b t) (hs : s.run o cap a rd wr = some r) : RInv w cap (tr ++ r.2) r.1 := by
  have hp : Pend (evsOf tr) a .pop := by have := hi.base.inv.pcs a; rw [show s.core.pc a = _ from hpc] at this; exact this.1
  have hwd := hi.words a
  rw [hpc] at hwd
  obtain ⟨q, rfl, hq, hol⟩ := hwd
  have hpos := hw.1
  have hper := period_ge hw
  have hle := hi.base.inv.le
  have hge := hi.base.inv.ge
  have htm := ht.at hp
  obtain ⟨m, k, hm, hf, hk, rfl⟩ := run_rmw (by rw [hpc]; rfl) hs
  simp only [runStep, pc_snap, hpc, Option.some.injEq] at hk
  obtain ⟨hmm, -⟩ := readMsg_spec hm
  obtain ⟨hlast, -⟩ := hi.mem.rmw_last (.inr rfl) hmm hf
  have hval : m.val = s.core.tail := (last_of_getLast? hlast).symm
  have htl : m.val = tailWord w cap (nRes (evsOf tr)) (closedB (evsOf tr)) := hval.trans hi.base.inv.tail
  have hcore : ∀ k : State w V × List (Event V), k.1.tail = m.val →
      (s.doRmw a .tail m o.popTail wr k).1.core = s.core.goto a (k.1.pc a) := by
    intro k hk
    unfold RState.doRmw
    simp only
    rw [core_put_tail, core_emit, core_load, cell, hk, hval]
    rfl
  have htt : ∀ evs : List (Event V), ∃ c, m.val = tailWord w cap (nRes (evsOf tr)) c ∧
      (c = true → closedB (evsOf tr ++ evs) = true) := fun evs =>
    ⟨_, htl, fun h => by rw [closedB_append, h]; rfl⟩
  unfold popTail at hk
  have hsn := snap_tail s m.val
  generalize s.snap (some .tail) m.val = S at hk hsn
  rw [hsn, htl, tailWord_and_not_closed hw] at hk
  split at hk
  · rename_i he
    have hqe := enc_inj hw he (by omega) (by omega)
    have hemp : nDeq (evsOf tr) = nRes (evsOf tr) := by omega
    split at hk
    · rename_i hcl
      have hcl := (closedBit_tailWord hw _ _).1 hcl
      subst hk
      refine hi.doRmw hw (.inr rfl) hmm hf (.retn a .closed _ hp ⟨closedB_iff.1 hcl, .inr ⟨hp.inv, hemp⟩⟩) ?_
        rfl rfl (noAcc_ret _ _) ?_ (fun _ => ?_) nofun ?_
      · rw [hcore _ hsn, goto_pc_self]
      · rw [goto_pc_self]; rfl
      · obtain ⟨c, h1, h2⟩ := htt _
        exact ⟨c, hsn.trans h1, h2⟩
      · rw [goto_pc_self]; trivial
    · subst hk
      refine hi.doRmw hw (.inr rfl) hmm hf (.retn a .empty _ hp ⟨hp.inv, nofun⟩) ?_
        rfl rfl (noAcc_ret _ _) ?_ (fun _ => ?_) nofun ?_
      · rw [hcore _ hsn, goto_pc_self]
      · rw [goto_pc_self]; rfl
      · obtain ⟨c, h1, h2⟩ := htt _
        exact ⟨c, hsn.trans h1, h2⟩
      · rw [goto_pc_self]; trivial
  · split at hk
    · subst hk
      refine hi.doRmw hw (.inr rfl) hmm hf (.retn a .empty _ hp ⟨hp.inv, nofun⟩) ?_
        rfl rfl (noAcc_ret _ _) ?_ (fun _ => ?_) nofun ?_
      · rw [hcore _ hsn, goto_pc_self]
      · rw [goto_pc_self]; rfl
      · obtain ⟨c, h1, h2⟩ := htt _
        exact ⟨c, hsn.trans h1, h2⟩
      · rw [goto_pc_self]; trivial
    · subst hk
      refine hi.doRmw hw (.inr rfl) hmm hf (.silent a (.popReload b.spin) _ hp trivial hp) ?_
        rfl rfl noAcc_nil ?_ (fun _ => ?_) nofun ?_
      · rw [hcore _ hsn, goto_pc_self]
      · rw [goto_pc_self]; rfl
      · obtain ⟨c, h1, h2⟩ := htt _
        exact ⟨c, hsn.trans h1, h2⟩
      · rw [goto_pc_self]; trivial

theorem run_closeStart {o : Orders} {tr : List (REv V)} {s : RState w V} {a : OpId} {rd wr : Nat}
    {r : RState w V × List (REv V)} {p : Bool} (hw : WellSized w cap)
    (hi : RInv w cap tr s)
    (hpc : s.pc a = .closeStart p) (hs : s.run o cap a rd wr = some r) : RInv w cap (tr ++ r.2) r.1 := by
  have hp : Pend (evsOf tr) a (.close p) := by have := hi.base.inv.pcs a; rw [show s.core.pc a = _ from hpc] at this; exact this
  cases p with
  | true =>
    obtain ⟨k, hk, rfl⟩ := run_none (by simp only [hpc, Orders.acc, if_true]) hs
    simp only [runStep, pc_snap, hpc, Option.some.injEq, closeStep, if_true] at hk
    subst hk
    refine hi.noAccess hw ?_ rfl rfl (noAcc_ret _ _) ?_ ?_
    · rw [goto_pc_self]
      exact .retn a _ _ hp ⟨hp.inv, rfl⟩
    · rw [goto_pc_self]; rfl
    · rw [goto_pc_self]; trivial
  | false =>
    obtain ⟨m, k, hm, hf, hk, rfl⟩ := run_rmw (by
      simp only [hpc, Orders.acc, Bool.false_eq_true, if_false]; rfl) hs
    simp only [runStep, pc_snap, hpc, Option.some.injEq, closeStep, Bool.false_eq_true, if_false] at hk
    obtain ⟨hmm, -⟩ := readMsg_spec hm
    obtain ⟨hlast, -⟩ := hi.mem.rmw_last (.inr rfl) hmm hf
    have hval : m.val = s.core.tail := (last_of_getLast? hlast).symm
    have htl : m.val = tailWord w cap (nRes (evsOf tr)) (closedB (evsOf tr)) := hval.trans hi.base.inv.tail
    have e : (decide (tailWord w cap (nRes (evsOf tr)) (closedB (evsOf tr)) &&&
        (Params.new w cap).closed = 0#w)) = (decide (closedB (evsOf tr) = false)) := by
      have := closedBit_tailWord hw (nRes (evsOf tr)) (closedB (evsOf tr))
      cases hx : closedB (evsOf tr)
      · rw [hx] at this
        simp only [ne_eq, Bool.false_eq_true, iff_false, Decidable.not_not] at this
        simp [this]
      · rw [hx] at this
        simpa using this
    have hsn := snap_tail s m.val
    generalize s.snap (some .tail) m.val = S at hk hsn
    rw [hsn, htl, tailWord_or_closed, e] at hk
    subst hk
    refine hi.doRmw hw (.inr rfl) hmm hf (.close a hp) ?_ rfl rfl (noAcc_of rfl) ?_
      (fun _ => ⟨true, rfl, fun _ => ?_⟩) nofun ?_
    · unfold RState.doRmw
      simp only
      rw [core_put_tail, core_emit, core_load]
      rw [show ∀ t : BitVec w, ({ S.goto a PC.done with tail := t } : State w V).pc a = .done from
        fun _ => goto_pc_self ..]
      rfl
    · show elemOf _ ((S.goto a .done).pc a) = none
      rw [goto_pc_self]; rfl
    · rw [closedB_append]; simp [closedB]
    · show WordOk _ _ _ _ _ ((S.goto a .done).pc a)
      rw [goto_pc_self]; trivial

end Thingbuf.RA
