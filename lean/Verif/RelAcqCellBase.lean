import Verif.RelAcqCell
import Verif.RelAcqKnowStep
/-
The facts about the ring buffer and about "happens before" in executions that contain steps of the wait cell.
-/
namespace Thingbuf.RA

variable {w cap : Nat} {V : Type} {o : Orders} {tr : List (REv V)}

/-! ### The ring buffer and foreign events -/

/-- Events of the wait cell. -/
def CellEvs (t : List (REv V)) : Prop := ∀ e ∈ t, ∃ x, e.1 = .cell x

theorem CellEvs.nil : CellEvs ([] : List (REv V)) := by intro e he; simp at he

theorem CellEvs.append {t u : List (REv V)} (h : CellEvs t) (h' : CellEvs u) : CellEvs (t ++ u) := by
  intro e he
  rcases List.mem_append.1 he with he | he
  · exact h e he
  · exact h' e he

theorem CellEvs.stamp (hb : List Nat) (n : Nat) (evs : List (Cell.Event Nat)) :
    CellEvs (RA.stamp hb n (evs.map (XEv.cell (V := V)))) := by
  intro e he
  obtain ⟨k, hk⟩ := getElem?_of_mem' he
  have := stamp_ev hk
  rw [List.getElem?_map] at this
  obtain ⟨x, -, h⟩ := Option.map_eq_some_iff.1 this
  exact ⟨x, h.symm⟩

theorem CellEvs.evsOf {t : List (REv V)} (h : CellEvs t) : RA.evsOf t = [] := by
  unfold RA.evsOf
  rw [List.filterMap_eq_nil_iff]
  intro e he
  obtain ⟨x, hx⟩ := h e he
  rw [hx]
  rfl

theorem CellEvs.evsOf_append {t : List (REv V)} (h : CellEvs t) : RA.evsOf (tr ++ t) = RA.evsOf tr := by
  rw [RA.evsOf_append, h.evsOf, List.append_nil]

theorem CellEvs.accAt {t : List (REv V)} (h : CellEvs t) {n i : Nat} (ha : AccAt (tr ++ t) n i) : AccAt tr n i := by
  obtain ⟨e, h1, h2⟩ := ha
  rw [List.getElem?_append] at h1
  split at h1
  · exact ⟨e, h1, h2⟩
  · obtain ⟨x, hx⟩ := h e (List.mem_of_getElem? h1)
    rw [hx] at h2
    cases h2

/-- The same ring buffer, with larger views. -/
structure Wider (s s' : RState w V) : Prop where
  mem : s'.mem = s.mem
  cont : s'.cont = s.cont
  pc : s'.pc = s.pc
  res : s'.res = s.res
  deq : s'.deq = s.deq
  oldest : s'.oldest = s.oldest
  view : ∀ b, (s.view b).le (s'.view b)

theorem Wider.trans {s s' s'' : RState w V} (h : Wider s s') (h' : Wider s' s'') : Wider s s'' :=
  ⟨h'.mem.trans h.mem, h'.cont.trans h.cont, h'.pc.trans h.pc, h'.res.trans h.res, h'.deq.trans h.deq,
    h'.oldest.trans h.oldest, fun b => (h.view b).trans (h'.view b)⟩

theorem Wider.core {s s' : RState w V} (h : Wider s s') : s'.core = s.core := by
  unfold RState.core RState.last RState.latest
  rw [h.mem, h.cont, h.pc]

theorem RInv.foreign {s s' : RState w V} {t : List (REv V)} (hi : RInv w cap tr s) (hx : Wider s s')
    (hnow : s'.now = (tr ++ t).length) (ht : CellEvs t) : RInv w cap (tr ++ t) s' := by
  have hT := ht.evsOf_append (tr := tr)
  have hl : ∀ l, s'.last l = s.last l := fun l => by unfold RState.last; rw [hx.mem]
  refine ⟨hnow, ?_, ?_, ?_, ?_, ?_, ?_, ?_, ?_, ?_, ?_⟩
  · rw [hT, hx.res, hi.res]
  · rw [hT, hx.deq, hi.deq]
  · rw [hT, hx.core]; exact hi.base
  · rw [hT]
    exact hi.mem.mono (fun l => by rw [hx.mem]) (Nat.le_refl _) (Nat.le_refl _) id
  · rw [hT]
    intro a
    rw [hx.pc]
    refine (hi.words a).ext ⟨fun l k m h => by rw [hx.mem]; exact h, hx.view⟩ (by rw [hx.oldest]; exact Nat.le_refl _)
      (Nat.le_refl _) (Nat.le_refl _) id
  · rw [hT]
    unfold SlotLen
    simp only [hl, hx.mem]
    exact hi.len
  · intro p hp m hm n hn
    rw [hT] at hp
    unfold Idle at hp
    simp only [hl] at hp
    rw [hx.mem] at hm
    exact hi.free p hp m hm n (ht.accAt hn)
  · intro b i hbi
    rw [hx.pc] at hbi
    obtain ⟨h1, h2⟩ := hi.own b i hbi
    rw [hx.mem]
    exact ⟨fun m hm => Nat.le_trans (h1 m hm) ((hx.view b).1 _), fun k hk => (hx.view b).2 _ (h2 k (ht.accAt hk))⟩
  · intro i e he
    rw [hx.cont] at he
    exact (hi.cont i e he).mono
  · intro p q i e hpq hp hq he
    rw [List.getElem?_append] at hq
    split at hq
    · exact hi.race p q i e hpq (ht.accAt hp) hq he
    · obtain ⟨x, hx⟩ := ht e (List.mem_of_getElem? hq)
      rw [hx] at he
      cases he

theorem Timely.foreign {s s' : RState w V} {t : List (REv V)} (h : Timely w cap tr s) (ho : s'.oldest = s.oldest)
    (ht : CellEvs t) : Timely w cap (tr ++ t) s' := by
  intro a ha
  rw [ht.evsOf_append] at ha ⊢
  rw [ho]
  exact h a ha

/-- The operation `a` comes to know more. -/
theorem HbInv.know {s s' : RState w V} {a : OpId} {v : View} (h : HbInv tr s) (hm : s'.mem = s.mem)
    (hn : s'.now = s.now) (hv : s'.view = upd s.view a v) (hg : Good tr v.hb) (hsub : ∀ n ∈ (s.view a).hb, n ∈ v.hb) :
    HbInv tr s' := by
  have hsub' : ∀ b n, n ∈ (s.view b).hb → n ∈ (s'.view b).hb := by
    intro b n hn
    rw [hv]
    by_cases hb : b = a
    · subst hb; rw [upd_self]; exact hsub n hn
    · rwa [upd_ne _ _ hb]
  refine ⟨hn.trans h.now, fun b => ?_, fun l m h1 => h.msg l m (hm ▸ h1), h.ord, fun q e he => hsub' _ _ (h.po q e he), h.own⟩
  rw [hv]
  by_cases hb : b = a
  · subst hb; rw [upd_self]; exact hg
  · rw [upd_ne _ _ hb]; exact h.view b

theorem KView.know {s s' : RState w V} {a : OpId} {v : View} (h : KView cap tr s) (hm : s'.mem = s.mem)
    (hv : s'.view = upd s.view a v) (hg : Know cap tr s v) : KView cap tr s' := by
  refine ⟨fun b => ?_, fun l m h1 => (h.msgs l m (hm ▸ h1)).congr hm⟩
  rw [hv]
  by_cases hb : b = a
  · subst hb; rw [upd_self]; exact hg.congr hm
  · rw [upd_ne _ _ hb]; exact (h.views b).congr hm

theorem KInv.foreign {s s' : RState w V} {t : List (REv V)} (h : KInv w cap tr s) (hm : s'.mem = s.mem)
    (hkv : KView cap (tr ++ t) s') : KInv w cap (tr ++ t) s' := by
  refine ⟨hkv, ?_, ?_, ?_⟩
  · rw [hm]; exact h.head
  · rw [hm]; exact h.tail
  · rw [hm]; exact h.res

theorem KTr.foreign {s s' : RState w V} {t : List (REv V)} (h : KTr w cap tr s) (hb : HbInv tr s) (hpc : s'.pc = s.pc)
    (ho : s'.oldest = s.oldest) (ht : CellEvs t) : KTr w cap (tr ++ t) s' := by
  have hni : ∀ b, ∀ e ∈ t, ∀ op, e.1 ≠ .core (.invoke b op) := by
    intro b e he op hx
    obtain ⟨x, hx'⟩ := ht e he
    rw [hx] at hx'
    cases hx'
  refine ⟨fun b => ?_, fun k b r he => ?_⟩
  · rw [hpc]
    exact (h.words b).append hb (hni b) (by rw [ho]; exact Nat.le_refl _)
  · rcases Nat.lt_or_ge k tr.length with hlt | hge
    · rw [List.take_append_of_le_length (by omega)]
      exact h.rets k b r (he.of_append hlt)
    · exfalso
      simp only [AtX, List.map_append] at he
      rw [List.getElem?_append_right (by simpa using hge), List.getElem?_map] at he
      obtain ⟨e, h1, h2⟩ := Option.map_eq_some_iff.1 he
      obtain ⟨x, hx⟩ := ht e (List.mem_of_getElem? h1)
      rw [hx] at h2
      cases h2

/-! ### Both together -/

structure BInv (w cap : Nat) (tr : List (REv V)) (s : XState w V) : Prop where
  inv : RInv w cap tr s.core
  timely : Timely w cap tr s.core
  hb : HbInv tr s.core
  kinv : KInv w cap tr s.core
  ktr : KTr w cap tr s.core
  good : ∀ m ∈ s.lock, Good tr m.view.hb
  know : ∀ m ∈ s.lock, Know cap tr s.core m.view

theorem BInv.init (hw : WellSized w cap) : BInv w cap [] (XState.init w V) where
  inv := RInv.init hw
  timely := (RExec.init (o := .source)).timely
  hb := (RExec.init (o := .source) (w := w) (cap := cap)).hbInv
  kinv := KInv.init
  ktr := ⟨fun _ => trivial, fun n a r h => by simp [AtX] at h⟩
  good := fun m hm => by rw [List.mem_singleton.1 hm]; exact Good.nil _
  know := fun m hm => by rw [List.mem_singleton.1 hm]; exact Know.bot

theorem BInv.congr {s s' : XState w V} (h : BInv w cap tr s) (hc : s'.core = s.core) (hl : s'.lock = s.lock) :
    BInv w cap tr s' := by
  constructor
  · rw [hc]; exact h.inv
  · rw [hc]; exact h.timely
  · rw [hc]; exact h.hb
  · rw [hc]; exact h.kinv
  · rw [hc]; exact h.ktr
  · rw [hl]; exact h.good
  · rw [hl, hc]; exact h.know

theorem upd_le {f : OpId → View} {a : OpId} {v : View} (h : (f a).le v) (b : OpId) : (f b).le (upd f a v b) := by
  by_cases hb : b = a
  · subst hb; rw [upd_self]; exact h
  · rw [upd_ne _ _ hb]; exact View.le_refl _

theorem BInv.setView {s : XState w V} (h : BInv w cap tr s) {a : OpId} {v : View} (hle : (s.core.view a).le v)
    (hg : Good tr v.hb) (hk : Know cap tr s.core v) : BInv w cap tr (s.setView a v) := by
  have hx : Wider s.core (s.setView a v).core := ⟨rfl, rfl, rfl, rfl, rfl, rfl, upd_le hle⟩
  have hb : HbInv tr (s.setView a v).core := h.hb.know rfl rfl rfl hg hle.2
  constructor
  · have := h.inv.foreign hx (t := []) (by rw [List.append_nil]; exact hb.now) .nil
    rwa [List.append_nil] at this
  · have := h.timely.foreign (t := []) hx.oldest .nil
    rwa [List.append_nil] at this
  · exact hb
  · have := h.kinv.foreign (t := []) hx.mem (by rw [List.append_nil]; exact h.kinv.kv.know rfl rfl hk)
    rwa [List.append_nil] at this
  · have := h.ktr.foreign (t := []) h.hb hx.pc hx.oldest .nil
    rwa [List.append_nil] at this
  · exact h.good
  · exact fun m hm => (h.know m hm).congr rfl

theorem BInv.load {s : XState w V} (h : BInv w cap tr s) {a : OpId} {n : Nat} {m : LMsg} {acq : Bool}
    (hm : m ∈ s.lock) : BInv w cap tr (s.load a n m acq) := by
  unfold XState.load
  split
  · exact h.setView ((View.le_see _ _ _).trans (View.le_join_left _ _)) ((h.hb.view a).union (h.good m hm))
      (((h.kinv.kv.views a).see _ _).join (h.know m hm))
  · exact h.setView (View.le_see _ _ _) (h.hb.view a) ((h.kinv.kv.views a).see _ _)

theorem Wider.emit (s : XState w V) (a : OpId) (evs : List (Cell.Event Nat)) : Wider s.core (s.emit a evs).1.core :=
  ⟨rfl, rfl, rfl, rfl, rfl, rfl, upd_le ⟨fun _ => Nat.le_refl _, fun _ hn => List.mem_append_right _ hn⟩⟩

theorem BInv.emit {s : XState w V} (h : BInv w cap tr s) {a : OpId} {evs : List (Cell.Event Nat)}
    (ho : ∀ e ∈ evs, cellOp e = a) : BInv w cap (tr ++ (s.emit a evs).2) (s.emit a evs).1 := by
  have hce : CellEvs (s.emit a evs).2 := CellEvs.stamp _ _ _
  have hx := Wider.emit s a evs
  have hb : HbInv (tr ++ (s.emit a evs).2) (s.emit a evs).1.core := by
    refine h.hb.stamp (evs := evs.map .cell) ?_ rfl ?_ ?_
    · intro e he
      obtain ⟨x, hx, rfl⟩ := List.mem_map.1 he
      exact ho x hx
    · rw [List.length_map]; rfl
    · rw [List.length_map]; rfl
  constructor
  · exact h.inv.foreign hx hb.now hce
  · exact h.timely.foreign hx.oldest hce
  · exact hb
  · refine h.kinv.foreign hx.mem (h.kinv.kv.stamp (evs := evs.map .cell) h.hb.now ?_ rfl ?_)
    · intro e he
      obtain ⟨x, hx, rfl⟩ := List.mem_map.1 he
      trivial
    · rw [List.length_map]; rfl
  · exact h.ktr.foreign h.hb hx.pc hx.oldest hce
  · exact fun m hm => (h.good m hm).mono
  · exact fun m hm => (h.know m hm).mono (fun _ _ _ h => h) (fun _ => Nat.le_refl _) (fun _ h => h)

theorem BInv.put {s : XState w V} (h : BInv w cap tr s) {a : OpId} {n : Nat} {v : Cell.Bits} {rel : Bool} {base : View}
    {hd : OpId} (hg : Good tr base.hb) (hk : Know cap tr s.core base) :
    BInv w cap tr (s.put a n v rel base hd) := by
  have h1 := h.setView (a := a) (View.le_see (s.core.view a) .lock n) (h.hb.view a) ((h.kinv.kv.views a).see _ _)
  refine ⟨h1.inv, h1.timely, h1.hb, h1.kinv, h1.ktr, ?_, ?_⟩
  · intro m hm
    rcases List.mem_append.1 hm with hm | hm
    · exact h.good m hm
    · rw [List.mem_singleton.1 hm]
      refine Good.union ?_ hg
      split
      · exact h.hb.view a
      · exact Good.nil _
  · intro m hm
    rcases List.mem_append.1 hm with hm | hm
    · exact (h.know m hm).congr rfl
    · rw [List.mem_singleton.1 hm]
      refine Know.congr ?_ (s := s.core) rfl
      refine Know.join ?_ hk
      split
      · exact (h.kinv.kv.views a).see _ _
      · exact Know.bot.see _ _

theorem takeWhile_op {a : OpId} {evs : List (Cell.Event Nat)} (h : ∀ e ∈ evs, cellOp e = a) (p : Cell.Event Nat → Bool) :
    (∀ e ∈ evs.takeWhile p, cellOp e = a) ∧ ∀ e ∈ evs.dropWhile p, cellOp e = a :=
  ⟨fun e he => h e ((List.takeWhile_sublist p).subset he), fun e he => h e ((List.dropWhile_sublist p).subset he)⟩

theorem BInv.doRmw {s : XState w V} (h : BInv w cap tr s) {a : OpId} {n : Nat} {m : LMsg} {od : MOrd}
    {k : Cell.State Nat × List (Cell.Event Nat)} (hm : m ∈ s.lock) (ho : ∀ e ∈ k.2, cellOp e = a) :
    BInv w cap (tr ++ (s.doRmw a n m od k).2) (s.doRmw a n m od k).1 := by
  obtain ⟨h1, h2⟩ := takeWhile_op ho atomicEv
  have g1 := ((h.load (a := a) (n := n) (acq := od.acq) hm).congr (s' := (s.load a n m od.acq).goto a (k.1.pc a)) rfl rfl).emit h1
  have g2 := g1.put (a := a) (n := n + 1) (v := k.1.lock) (rel := od.rel) (base := m.view)
    (hd := if s.cpc a = .waitStart then a else m.holder) (g1.good m hm) (g1.know m hm)
  have g3 := g2.emit h2
  rw [List.append_assoc] at g3
  exact g3

theorem BInv.doLoad {s : XState w V} (h : BInv w cap tr s) {a : OpId} {n : Nat} {m : LMsg} {od : MOrd}
    {k : Cell.State Nat × List (Cell.Event Nat)} (hm : m ∈ s.lock) (ho : ∀ e ∈ k.2, cellOp e = a) :
    BInv w cap (tr ++ (s.doLoad a n m od k).2) (s.doLoad a n m od k).1 :=
  ((h.load (a := a) (n := n) (acq := od.acq) hm).congr (s' := (s.load a n m od.acq).goto a (k.1.pc a)) rfl rfl).emit ho

/-! ### Steps of the ring buffer -/

theorem Shape.ext {s : RState w V} {r : RState w V × List (REv V)} (h : Shape o s r) : Ext s r.1 := by
  cases h with
  | emit a pc evs s1 hm hv hn hp =>
    have h0 : Ext s s1 := ⟨by rw [hm]; exact fun _ _ _ h => h, by rw [hv]; exact fun _ => View.le_refl _⟩
    exact h0.trans (Ext.emit ..)
  | load a l rd m od k hm hp => exact (Ext.load ..).trans (Ext.emit ..)
  | rmw a l rd wr m od k hl hm hf hc hd hcl => exact ((Ext.load ..).trans (Ext.emit ..)).trans (Ext.put ..)
  | commit a i wr ns rel hpc ht => exact (Ext.emit ..).trans (Ext.put ..)
  | release a i wr ns rel hpc ht => exact (Ext.emit ..).trans (Ext.put ..)
  | sync a b => exact ⟨fun _ _ _ h => h, upd_le (View.le_join_left _ _)⟩

theorem BInv.core {s : XState w V} {act : RAct V} {r : RState w V × List (REv V)} (hw : WellSized w cap)
    (ho : Synchronised o) (h : BInv w cap tr s) (hs : rstep o cap s.core act = some r)
    (ht : Timely w cap (tr ++ r.2) r.1) : BInv w cap (tr ++ r.2) { s with core := r.1 } := by
  have hsh := rstep_shape hs
  have hi := h.inv.pres hw ho h.timely hs ht
  exact ⟨hi, ht, h.hb.pres hs, h.kinv.pres hw h.inv hsh hi, h.ktr.pres hw h.kinv h.inv h.hb hs ht,
    fun m hm => (h.good m hm).mono, fun m hm => (h.know m hm).mono hsh.ext.mem (fun _ => Nat.le_refl _) (fun _ h => h)⟩

/-- The events of a step of the cell belong to the operation that takes it. -/
theorem cellStep_op {c : Cell.Config} {s : Cell.State Nat} {act : Cell.Act Nat} {k : Cell.State Nat × List (Cell.Event Nat)}
    (h : Cell.step c s act = some k) : ∀ e ∈ k.2, cellOp e = cellActOp act := by
  cases act with
  | callWait a =>
    simp only [Cell.step] at h
    split at h <;> cases h
    simp [cellOp, cellActOp]
  | callNotify a close =>
    simp only [Cell.step] at h
    split at h <;> cases h
    simp [cellOp, cellActOp]
  | mk a v =>
    simp only [Cell.step] at h
    split at h <;> cases h <;> simp [cellOp, cellActOp]
  | mkPanic a =>
    simp only [Cell.step] at h
    split at h
    · split at h <;> cases h <;> simp [cellOp, cellActOp]
    · cases h; simp [cellOp, cellActOp]
    · cases h
  | run a =>
    simp only [Cell.step, Cell.runStep] at h
    split at h
    all_goals first | cases h; done | skip
    all_goals
      simp only [Option.some.injEq] at h
      subst h
      simp only [Cell.waitStart, Cell.waitUnlock, Cell.waitReset, Cell.waitWake, Cell.notifyStart]
      repeat' split
      all_goals simp [cellOp, cellActOp]

theorem readLock_mem {s : XState w V} {a : OpId} {n : Nat} {m : LMsg} (h : s.readLock a n = some m) : m ∈ s.lock := by
  unfold XState.readLock at h
  split at h
  · exact List.mem_of_getElem? h
  · cases h

theorem BInv.cellStep {co : CellOrders} {c : Cell.Config} {s : XState w V} {act : Cell.Act Nat} {n : Nat}
    {r : XState w V × List (REv V)} (h : BInv w cap tr s) (hs : s.cellStep co c act n = some r) :
    BInv w cap (tr ++ r.2) r.1 := by
  unfold XState.cellStep at hs
  simp only at hs
  split at hs
  · obtain ⟨k, hk, rfl⟩ := Option.map_eq_some_iff.1 hs
    exact (h.congr (s' := s.goto _ _) rfl rfl).emit (cellStep_op hk)
  · split at hs
    · cases hs
    · obtain ⟨k, hk, rfl⟩ := Option.map_eq_some_iff.1 hs
      exact (h.congr (s' := { s.goto _ _ with waiter := _ }) rfl rfl).emit (cellStep_op hk)
  · split at hs
    · cases hs
    · rename_i m hm
      split at hs
      · obtain ⟨k, hk, rfl⟩ := Option.map_eq_some_iff.1 hs
        exact h.doRmw (readLock_mem hm) (cellStep_op hk)
      · cases hs
  · split at hs
    · cases hs
    · rename_i m hm
      split at hs
      · split at hs
        · obtain ⟨k, hk, rfl⟩ := Option.map_eq_some_iff.1 hs
          exact h.doRmw (readLock_mem hm) (cellStep_op hk)
        · cases hs
      · obtain ⟨k, hk, rfl⟩ := Option.map_eq_some_iff.1 hs
        exact h.doLoad (readLock_mem hm) (cellStep_op hk)

theorem XExec.binv {co : CellOrders} {c : Cell.Config} {s : XState w V} (hw : WellSized w cap) (ho : Synchronised o)
    (h : XExec o co c w cap tr s) : BInv w cap tr s := by
  induction h with
  | init => exact .init hw
  | @step tr s s' act evs h1 h2 h3 ih =>
    cases act with
    | core act =>
      obtain ⟨r, hr, he⟩ := Option.map_eq_some_iff.1 h2
      obtain ⟨rfl, rfl⟩ := Prod.mk.inj he
      exact ih.core hw ho hr h3
    | cell act n => exact ih.cellStep h2

end Thingbuf.RA
