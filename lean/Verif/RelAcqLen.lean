import Verif.RelAcqProps
import Verif.RelAcqCellBase
/-
What `len` finds on the release/acquire machine.
-/
namespace Thingbuf.RA

variable {w cap : Nat} {V : Type} {o : Orders} {tr : List (REv V)} {s s' : RState w V}

/-! ### Positions in the trace -/

theorem nth_reserve {t : List (REv V)} {q : Nat} (h : q < nRes (evsOf t)) :
    ∃ n b i, At t n (.reserve b i) ∧ nRes (evsOf (t.take n)) = q := by
  obtain ⟨t1, t2, rfl, h1, h2⟩ : ∃ t1 t2, t = t1 ++ t2 ∧ nRes (evsOf t1) = q ∧
      ∃ b i hb rest, t2 = (.core (.reserve b i), hb) :: rest := by
    induction t generalizing q with
    | nil => simp [evsOf] at h
    | cons e t ih =>
      by_cases hd : ∃ b i, e.1 = .core (.reserve b i)
      · obtain ⟨b, i, hd⟩ := hd
        have e0 : evsOf (e :: t) = .reserve b i :: evsOf t := by
          simp [evsOf, hd, XEv.core?]
        cases q with
        | zero => exact ⟨[], e :: t, rfl, rfl, b, i, e.2, t, by rw [← hd]⟩
        | succ q =>
          have : q < nRes (evsOf t) := by
            rw [e0] at h
            simpa [nRes, resOps] using h
          obtain ⟨t1, t2, rfl, h1, h2⟩ := ih this
          refine ⟨e :: t1, t2, rfl, ?_, h2⟩
          have e1 : evsOf (e :: t1) = .reserve b i :: evsOf t1 := by
            simp [evsOf, hd, XEv.core?]
          rw [e1, ← h1]
          simp [nRes, resOps]
      · have e0 : ∀ t : List (REv V), nRes (evsOf (e :: t)) = nRes (evsOf t) := by
          intro t
          cases hx : e.1 with
          | cell y => simp [evsOf, hx, XEv.core?]
          | core y =>
            have : evsOf (e :: t) = y :: evsOf t := by simp [evsOf, hx, XEv.core?]
            rw [this]
            cases y <;> first | rfl | exact absurd ⟨_, _, hx⟩ hd
        rw [e0] at h
        obtain ⟨t1, t2, rfl, h1, h2⟩ := ih h
        exact ⟨e :: t1, t2, rfl, (e0 t1).trans h1, h2⟩
  obtain ⟨b, i, hb, rest, rfl⟩ := h2
  refine ⟨t1.length, b, i, ?_, ?_⟩
  · simp [AtX]
  · rw [List.take_left]; exact h1

theorem AtX.of_take {n p : Nat} {e : XEv V} (h : AtX (tr.take p) n e) : n < p ∧ AtX tr n e := by
  have hn := At.lt h
  rw [List.length_take] at hn
  refine ⟨by omega, ?_⟩
  have h' : ((tr.take p).map Prod.fst)[n]? = _ := h
  rw [List.map_take, List.getElem?_take, if_pos (by omega)] at h'
  exact h'

/-- The `k`-th reservation before position `p`. -/
theorem reserve_before {p k : Nat} (h : k < nRes (evsOf (tr.take p))) :
    ∃ n b i, n < p ∧ At tr n (.reserve b i) ∧ nRes (evsOf (tr.take n)) = k := by
  obtain ⟨n, b, i, h1, h2⟩ := nth_reserve h
  obtain ⟨h3, h4⟩ := AtX.of_take h1
  rw [List.take_take, Nat.min_eq_left (by omega)] at h2
  exact ⟨n, b, i, h3, h4, h2⟩

/-- The `k`-th dequeue before position `p`. -/
theorem dequeue_before {p k : Nat} (h : k < nDeq (evsOf (tr.take p))) :
    ∃ n b i x, n < p ∧ At tr n (.dequeue b i x) ∧ nDeq (evsOf (tr.take n)) = k := by
  obtain ⟨n, b, i, x, h1, h2⟩ := nth_dequeue h
  obtain ⟨h3, h4⟩ := AtX.of_take h1
  rw [List.take_take, Nat.min_eq_left (by omega)] at h2
  exact ⟨n, b, i, x, h3, h4, h2⟩

theorem RInv.facts (hw : WellSized w cap) (hi : RInv w cap tr s) : Facts False w cap (evsOf tr) :=
  ⟨hw, hi.base.evs, hi.base.y⟩

theorem RInv.race_hb (hi : RInv w cap tr s) {p q i : Nat} {e f : Event V} (hpq : p < q)
    (hp : At tr p e) (hq : At tr q f) (he : touched e = some i) (hf : touched f = some i) : HB tr p q := by
  simp only [AtX, List.getElem?_map] at hp hq
  obtain ⟨e', he', h1⟩ := Option.map_eq_some_iff.1 hp
  obtain ⟨f', hf', h2⟩ := Option.map_eq_some_iff.1 hq
  exact ⟨f', hf', hi.race p q i f' hpq ⟨e', he', by rw [h1]; exact he⟩ hf' (by rw [h2]; exact hf)⟩

/-- An element was reserved before it was dequeued, and the consumer knows. -/
theorem RInv.reserve_hb_dequeue (hw : WellSized w cap) (h : RInv w cap tr s) {n i : Nat} {b : OpId} {x : Option V}
    (hn : At tr n (.dequeue b i x)) :
    ∃ m c j, HB tr m n ∧ At tr m (.reserve c j) ∧ nRes (evsOf (tr.take m)) = nDeq (evsOf (tr.take n)) := by
  obtain ⟨-, hi, hlt, -⟩ := (h.facts hw).evOk hn.split
  obtain ⟨m, c, j, hm, hr, hk⟩ := reserve_before hlt
  obtain ⟨-, -, hj, -⟩ := (h.facts hw).evOk hr.split
  refine ⟨m, c, j, h.race_hb hm hr hn rfl ?_, hr, hk⟩
  show some i = some j
  rw [hi, hj, hk]

/-- A place was given back before it was reserved again, and the producer knows. -/
theorem RInv.dequeue_hb_reserve (hw : WellSized w cap) (h : RInv w cap tr s) {n i : Nat} {b : OpId}
    (hn : At tr n (.reserve b i)) (hc : cap ≤ nRes (evsOf (tr.take n))) :
    ∃ m c j x, HB tr m n ∧ At tr m (.dequeue c j x) ∧ nDeq (evsOf (tr.take m)) + cap = nRes (evsOf (tr.take n)) := by
  obtain ⟨-, -, hi, -, hlt, -⟩ := (h.facts hw).evOk hn.split
  obtain ⟨m, c, j, x, hm, hr, hk⟩ := dequeue_before (tr := tr) (p := n) (k := nRes (evsOf (tr.take n)) - cap) (by omega)
  obtain ⟨-, hj, -⟩ := (h.facts hw).evOk hr.split
  refine ⟨m, c, j, x, h.race_hb hm hr hn rfl ?_, hr, by omega⟩
  show some i = some j
  rw [hi, hj, hk, ← Nat.mod_eq_sub_mod hc]

/-! ### What is known when the call began -/

/-- Every place reserved before operation `a` was called comes before the `p`-th. -/
def PastRes (tr : List (REv V)) (a : OpId) (p : Nat) : Prop :=
  ∀ n b i, Before tr a n → At tr n (.reserve b i) → nRes (evsOf (tr.take n)) < p

/-- What `len` has read of the tail. -/
def TailK (w cap : Nat) (tr : List (REv V)) (a : OpId) (t : BitVec w) (p : Nat) : Prop :=
  ∃ c, t = tailWord w cap p c ∧ p ≤ nRes (evsOf tr) ∧ PastRes tr a p ∧ (c = true → closedB (evsOf tr) = true)

/-- What `len` has read of the head. -/
def HeadK (w cap : Nat) (tr : List (REv V)) (a : OpId) (h : BitVec w) (q : Nat) : Prop :=
  h = enc w cap q ∧ q ≤ nDeq (evsOf tr) ∧ Past tr a q

section
variable {t : List (REv V)} {a : OpId}

theorem PastRes.append {p : Nat} (h : HbInv tr s) (ht : ∀ e ∈ t, ∀ op, e.1 ≠ .core (.invoke a op))
    (hp : PastRes tr a p) : PastRes (tr ++ t) a p := by
  intro n b i h1 h2
  have h1 := h1.of_append ht
  have h3 := h1.lt h
  rw [List.take_append_of_le_length (by omega)]
  exact hp n b i h1 (h2.of_append h3)

theorem TailK.append {u : BitVec w} {p : Nat} (h : HbInv tr s) (ht : ∀ e ∈ t, ∀ op, e.1 ≠ .core (.invoke a op))
    (hp : TailK w cap tr a u p) : TailK w cap (tr ++ t) a u p := by
  obtain ⟨c, h1, h2, h3, h4⟩ := hp
  refine ⟨c, h1, ?_, h3.append h ht, fun hc => ?_⟩
  · rw [evsOf_append, nRes_append]; omega
  · rw [evsOf_append]; exact closedB_mono (h4 hc)

theorem HeadK.append {u : BitVec w} {q : Nat} (h : HbInv tr s) (ht : ∀ e ∈ t, ∀ op, e.1 ≠ .core (.invoke a op))
    (hp : HeadK w cap tr a u q) : HeadK w cap (tr ++ t) a u q := by
  obtain ⟨h1, h2, h3⟩ := hp
  refine ⟨h1, ?_, h3.append h ht⟩
  rw [evsOf_append, nDeq_append]; omega

end

/-! ### Reading -/

/-- A load of `tail` sees every reservation that the operation knows of. -/
theorem KInv.seesRes (hk : KInv w cap tr s) (hi : RInv w cap tr s) {a : OpId} {rd : Nat} {m : Msg w}
    (hm : s.readMsg a .tail rd = some m) {n i : Nat} {b : OpId} (h1 : n ∈ (s.view a).hb) (h2 : At tr n (.reserve b i)) :
    nRes (evsOf (tr.take n)) < m.born := by
  obtain ⟨m0, h3, h4, h5⟩ := (hk.kv.views a n h1).2.reserve b i h2
  obtain ⟨hmm, rfl, hle⟩ := readMsg_spec hm
  obtain ⟨j, hj⟩ := getElem?_of_mem' h3
  obtain ⟨k, hk'⟩ := getElem?_of_mem' hmm
  have hjk := hi.mem.idx_le hj hk' (by omega)
  rcases Nat.eq_or_lt_of_le hjk with rfl | hlt
  · rw [hj] at hk'; cases hk'; exact h4
  · have := hk.res j k _ _ hlt hj hk'; omega

/-- A load of `head` sees every dequeue that the operation knows of. -/
theorem KInv.seesDeq (hk : KInv w cap tr s) (hi : RInv w cap tr s) {a : OpId} {rd : Nat} {m : Msg w}
    (hm : s.readMsg a .head rd = some m) {n i : Nat} {b : OpId} {x : Option V} (h1 : n ∈ (s.view a).hb)
    (h2 : At tr n (.dequeue b i x)) : nDeq (evsOf (tr.take n)) < m.deqs := by
  obtain ⟨m0, h3, h4, h5⟩ := (hk.kv.views a n h1).2.dequeue b i x h2
  obtain ⟨hmm, rfl, hle⟩ := readMsg_spec hm
  obtain ⟨j, hj⟩ := getElem?_of_mem' h3
  obtain ⟨k, hk'⟩ := getElem?_of_mem' hmm
  have hjk := hi.mem.idx_le hj hk' (by omega)
  rcases Nat.eq_or_lt_of_le hjk with rfl | hlt
  · rw [hj] at hk'; cases hk'; exact h4
  · have := hk.head j k _ _ hlt hj hk'; omega

theorem KInv.lenTail (hk : KInv w cap tr s) (hi : RInv w cap tr s) (hb : HbInv tr s) {a : OpId} {rd : Nat} {m : Msg w}
    (hm : s.readMsg a .tail rd = some m) : TailK w cap tr a m.val m.born := by
  obtain ⟨c, h1, h2, h3⟩ := hi.mem.tail m (readMsg_spec hm).1
  exact ⟨c, h1, h2, fun n b i hn hr => hk.seesRes hi hm (hn.mem hb) hr, h3⟩

theorem KInv.lenHead (hk : KInv w cap tr s) (hi : RInv w cap tr s) (hb : HbInv tr s) {a : OpId} {rd : Nat} {m : Msg w}
    (hm : s.readMsg a .head rd = some m) : HeadK w cap tr a m.val m.deqs := by
  obtain ⟨h1, h2, -⟩ := hi.mem.head m (readMsg_spec hm).1
  exact ⟨h1, h2, fun n b i x hn hr => hk.seesDeq hi hm (hn.mem hb) hr⟩

/-! ### What the messages know -/

/-- Those who know `v` know of the first `p` reservations. -/
def KnowsRes (tr : List (REv V)) (v : View) (p : Nat) : Prop :=
  ∀ n b i, At tr n (.reserve b i) → nRes (evsOf (tr.take n)) < p → n ∈ v.hb

/-- Those who know `v` know of the first `q` dequeues. -/
def KnowsDeq (tr : List (REv V)) (v : View) (q : Nat) : Prop :=
  ∀ n b i x, At tr n (.dequeue b i x) → nDeq (evsOf (tr.take n)) < q → n ∈ v.hb

theorem KnowsRes.append {t : List (REv V)} {v v' : View} {p : Nat} (h : KnowsRes tr v p) (hp : p ≤ nRes (evsOf tr))
    (hv : ∀ n ∈ v.hb, n ∈ v'.hb) : KnowsRes (tr ++ t) v' p := by
  intro n b i h1 h2
  rcases Nat.lt_or_ge n tr.length with hn | hn
  · rw [List.take_append_of_le_length (by omega)] at h2
    exact hv n (h n b i (h1.of_append hn) h2)
  · rw [List.take_append, List.take_of_length_le hn, evsOf_append, nRes_append] at h2
    omega

theorem KnowsDeq.append {t : List (REv V)} {v v' : View} {p : Nat} (h : KnowsDeq tr v p) (hp : p ≤ nDeq (evsOf tr))
    (hv : ∀ n ∈ v.hb, n ∈ v'.hb) : KnowsDeq (tr ++ t) v' p := by
  intro n b i x h1 h2
  rcases Nat.lt_or_ge n tr.length with hn | hn
  · rw [List.take_append_of_le_length (by omega)] at h2
    exact hv n (h n b i x (h1.of_append hn) h2)
  · rw [List.take_append, List.take_of_length_le hn, evsOf_append, nDeq_append] at h2
    omega

structure LMem (tr : List (REv V)) (s : RState w V) : Prop where
  tail : ∀ m, m ∈ s.mem .tail → KnowsRes tr m.view m.born
  head : ∀ m, m ∈ s.mem .head → KnowsDeq tr m.view m.deqs
  lastTail : ∀ m, (s.mem .tail).getLast? = some m → m.born = nRes (evsOf tr)
  lastHead : ∀ m, (s.mem .head).getLast? = some m → m.deqs = nDeq (evsOf tr)

theorem LMem.init : LMem ([] : List (REv V)) (RState.init w V) := by
  refine ⟨fun m _ n b i h => ?_, fun m _ n b i x h => ?_, fun m hm => ?_, fun m hm => ?_⟩
  · simp [AtX] at h
  · simp [AtX] at h
  · simp only [RState.init, List.getLast?_singleton, Option.some.injEq] at hm
    subst hm; rfl
  · simp only [RState.init, List.getLast?_singleton, Option.some.injEq] at hm
    subst hm; rfl

theorem nRes_zero {evs : List (Event V)} (h : ¬ ∃ b i, Event.reserve b i ∈ evs) : nRes evs = 0 := by
  unfold nRes
  rw [List.length_eq_zero_iff, resOps, List.filterMap_eq_nil_iff]
  intro e he
  cases e <;> first | rfl | exact absurd ⟨_, _, he⟩ h

theorem nDeq_zero {evs : List (Event V)} (h : ¬ ∃ b i x, Event.dequeue b i x ∈ evs) : nDeq evs = 0 := by
  unfold nDeq
  rw [List.length_eq_zero_iff, deqOps, List.filterMap_eq_nil_iff]
  intro e he
  cases e <;> first | rfl | exact absurd ⟨_, _, _, he⟩ h

/-- A step that does not write to `tail` (`head`) and reserves (dequeues) nothing. -/
theorem LMem.keep (hl : LMem tr s) (hi : RInv w cap tr s) {t : List (REv V)}
    (ht : s'.mem .tail = s.mem .tail) (hh : s'.mem .head = s.mem .head) (hr : nRes (evsOf t) = 0) (hd : nDeq (evsOf t) = 0) :
    LMem (tr ++ t) s' := by
  refine ⟨fun m hm => ?_, fun m hm => ?_, fun m hm => ?_, fun m hm => ?_⟩
  · rw [ht] at hm
    obtain ⟨c, -, h2, -⟩ := hi.mem.tail m hm
    exact (hl.tail m hm).append h2 (fun _ h => h)
  · rw [hh] at hm
    exact (hl.head m hm).append (hi.mem.head m hm).2.1 (fun _ h => h)
  · rw [ht] at hm
    rw [evsOf_append, nRes_append, hr]
    exact hl.lastTail m hm
  · rw [hh] at hm
    rw [evsOf_append, nDeq_append, hd]
    exact hl.lastHead m hm

theorem plain_zero {evs : List (Event V)} (h : ∀ e ∈ evs, Plain (.core e)) : nRes evs = 0 ∧ nDeq evs = 0 :=
  ⟨nRes_zero fun ⟨_, _, hm⟩ => h _ hm, nDeq_zero fun ⟨_, _, _, hm⟩ => h _ hm⟩

/-- The orderings that `len` depends on. -/
structure LenOrders (o : Orders) : Prop where
  push : o.pushCasOk.rel = true
  pop : o.popCasOk.rel = true
  len : o.len.acq = true

theorem LMem.pres {r : RState w V × List (REv V)} (ho : LenOrders o) (hl : LMem tr s) (hi : RInv w cap tr s)
    (hsh : Shape o s r) : LMem (tr ++ r.2) r.1 := by
  cases hsh with
  | emit a pc evs s1 hm hv hn hp =>
    obtain ⟨h1, h2⟩ := plain_zero hp
    refine hl.keep hi ?_ ?_ ?_ ?_
    · show s1.mem .tail = _; rw [hm]
    · show s1.mem .head = _; rw [hm]
    · rw [show evsOf (s1.emit a pc evs).2 = evs from evsOf_stamp ..]; exact h1
    · rw [show evsOf (s1.emit a pc evs).2 = evs from evsOf_stamp ..]; exact h2
  | load a l rd m od k hm hp =>
    obtain ⟨h1, h2⟩ := plain_zero hp
    refine hl.keep hi rfl rfl ?_ ?_
    · rw [show evsOf (s.doLoad a l m od k).2 = k.2 from evsOf_stamp ..]; exact h1
    · rw [show evsOf (s.doLoad a l m od k).2 = k.2 from evsOf_stamp ..]; exact h2
  | sync a b => exact hl.keep hi rfl rfl rfl rfl
  | commit a i wr ns rel hpc ht =>
    refine hl.keep hi (put_mem_ne _ _ _ _ _ _ _ (by simp)) (put_mem_ne _ _ _ _ _ _ _ (by simp)) ?_ ?_
    · rw [show evsOf (RA.drop s a i wr ns rel (.commit a i (s.core.val i))).2 = [.commit a i (s.core.val i)] from evsOf_stamp ..]; rfl
    · rw [show evsOf (RA.drop s a i wr ns rel (.commit a i (s.core.val i))).2 = [.commit a i (s.core.val i)] from evsOf_stamp ..]; rfl
  | release a i wr ns rel hpc ht =>
    refine hl.keep hi (put_mem_ne _ _ _ _ _ _ _ (by simp)) (put_mem_ne _ _ _ _ _ _ _ (by simp)) ?_ ?_
    · rw [show evsOf (RA.drop s a i wr ns rel (.release a i (s.core.val i))).2 = [.release a i (s.core.val i)] from evsOf_stamp ..]; rfl
    · rw [show evsOf (RA.drop s a i wr ns rel (.release a i (s.core.val i))).2 = [.release a i (s.core.val i)] from evsOf_stamp ..]; rfl
  | rmw a l rd wr m od k hll hm hf hc hd hcl hre hdo hro =>
    have hmm := readMsg_mem hm
    obtain ⟨hlast, -⟩ := hi.mem.rmw_last hll hmm hf
    have hT : evsOf (s.doRmw a l m od wr k).2 = k.2 := evsOf_stamp ..
    -- the new message
    have hx : ∃ x : Msg w, (s.doRmw a l m od wr k).1.mem l = s.mem l ++ [x] ∧ x.born = s.res + nRes k.2 ∧
        x.deqs = s.deq + nDeq k.2 ∧ (∀ n ∈ m.view.hb, n ∈ x.view.hb) ∧
        (od.rel = true → ∀ n, tr.length ≤ n → n < tr.length + k.2.length → n ∈ x.view.hb) := by
      refine ⟨_, if_pos rfl, rfl, rfl, (View.le_join_right _ _).2, fun hrel n h7 h8 => ?_⟩
      refine (View.le_join_left _ _).2 n ?_
      rw [if_pos hrel]
      show n ∈ (upd _ _ _ _ : View).hb
      rw [upd_self]
      refine List.mem_append_left _ (List.mem_range'_1.2 ?_)
      have := hi.now
      show s.now ≤ n ∧ _ < s.now + _
      omega
    obtain ⟨x, h1, h2, h3, h4, h5⟩ := hx
    rw [hi.res, ← nRes_append, ← hT, ← evsOf_append] at h2
    rw [hi.deq, ← nDeq_append, ← hT, ← evsOf_append] at h3
    have hlen : ∀ n e, AtX (tr ++ (s.doRmw a l m od wr k).2) n e → n < tr.length + k.2.length := by
      intro n e h
      have := At.lt h
      rwa [List.length_append, show (s.doRmw a l m od wr k).2.length = k.2.length from stamp_length ..] at this
    have other : ∀ l', l' ≠ l → (s.doRmw a l m od wr k).1.mem l' = s.mem l' := fun l' h => put_mem_ne _ _ _ _ _ _ _ h
    have oldT : ∀ m', m' ∈ s.mem .tail → KnowsRes (tr ++ (s.doRmw a l m od wr k).2) m'.view m'.born := by
      intro m' hm'
      obtain ⟨c, -, h2, -⟩ := hi.mem.tail m' hm'
      exact (hl.tail m' hm').append h2 (fun _ h => h)
    have oldH : ∀ m', m' ∈ s.mem .head → KnowsDeq (tr ++ (s.doRmw a l m od wr k).2) m'.view m'.deqs :=
      fun m' hm' => (hl.head m' hm').append (hi.mem.head m' hm').2.1 (fun _ h => h)
    rcases hll with rfl | rfl
    · have hr0 : nRes k.2 = 0 := nRes_zero fun h => by cases hre h
      refine ⟨?_, ?_, ?_, ?_⟩
      · rw [other _ (by simp)]; exact oldT
      · rw [h1]
        intro m' hm'
        rcases List.mem_append.1 hm' with hm' | hm'
        · exact oldH m' hm'
        · rw [List.mem_singleton.1 hm']
          intro n b i y h6 h7
          rcases Nat.lt_or_ge n tr.length with hn | hn
          · refine h4 n (hl.head m hmm n b i y (h6.of_append hn) ?_)
            rw [hl.lastHead m hlast]
            have h8 := h6.of_append hn
            conv => rhs; rw [At.split h8]
            rw [nDeq_append]
            have : 0 < nDeq (Event.dequeue b i y :: evsOf (tr.drop (n + 1))) := by simp [nDeq, deqOps]
            omega
          · refine h5 ?_ n hn (hlen n _ h6)
            rw [hdo ⟨b, i, y, List.mem_of_getElem? (At.new (hb := (s.load a .head m od.acq).view a |>.hb) (k := s.now) h6 hn)⟩]
            exact ho.pop
      · rw [other _ (by simp)]
        intro m' hm'
        rw [evsOf_append, nRes_append, hT, hr0]
        exact hl.lastTail m' hm'
      · rw [h1]
        intro m' hm'
        rw [List.getLast?_concat] at hm'
        cases hm'
        exact h3
    · have hd0 : nDeq k.2 = 0 := nDeq_zero fun h => by cases hd h
      refine ⟨?_, ?_, ?_, ?_⟩
      · rw [h1]
        intro m' hm'
        rcases List.mem_append.1 hm' with hm' | hm'
        · exact oldT m' hm'
        · rw [List.mem_singleton.1 hm']
          intro n b i h6 h7
          rcases Nat.lt_or_ge n tr.length with hn | hn
          · refine h4 n (hl.tail m hmm n b i (h6.of_append hn) ?_)
            rw [hl.lastTail m hlast]
            have h8 := h6.of_append hn
            conv => rhs; rw [At.split h8]
            rw [nRes_append]
            have : 0 < nRes (Event.reserve b i :: evsOf (tr.drop (n + 1))) := by simp [nRes, resOps]
            omega
          · refine h5 ?_ n hn (hlen n _ h6)
            rw [hro ⟨b, i, List.mem_of_getElem? (At.new (hb := (s.load a .tail m od.acq).view a |>.hb) (k := s.now) h6 hn)⟩]
            exact ho.push
      · rw [other _ (by simp)]; exact oldH
      · rw [h1]
        intro m' hm'
        rw [List.getLast?_concat] at hm'
        cases hm'
        exact h2
      · rw [other _ (by simp)]
        intro m' hm'
        rw [evsOf_append, nDeq_append, hT, hd0]
        exact hl.lastHead m' hm'

/-! ### What `len` carries around -/

/-- What was known when `len` was called, and what it has read. -/
def LenK (w cap : Nat) (tr : List (REv V)) (a : OpId) (n : Nat) : Prop :=
  ∃ t h p q, n = lenOf (Params.new w cap) cap t h ∧ TailK w cap tr a t p ∧ HeadK w cap tr a h q ∧ q ≤ p ∧ p ≤ q + cap

def LWord (w cap : Nat) (tr : List (REv V)) (s : RState w V) (a : OpId) : PC w → Prop
  | .lenHead t => ∃ p, TailK w cap tr a t p ∧ s.oldest a ≤ p ∧ KnowsRes tr (s.view a) p
  | .lenTail t h => ∃ p q, TailK w cap tr a t p ∧ s.oldest a ≤ p ∧ HeadK w cap tr a h q ∧ p ≤ q + cap ∧
      KnowsDeq tr (s.view a) q
  | _ => True

def NoLen : PC w → Prop
  | .lenHead _ | .lenTail _ _ => False
  | _ => True

theorem NoLen.word {pc : PC w} (h : NoLen pc) (a : OpId) : LWord w cap tr s a pc := by
  cases pc <;> first | trivial | exact h.elim

section
variable {a : OpId}

theorem LenK.append {t : List (REv V)} {n : Nat} (h : HbInv tr s) (ht : ∀ e ∈ t, ∀ op, e.1 ≠ .core (.invoke a op))
    (hk : LenK w cap tr a n) : LenK w cap (tr ++ t) a n := by
  obtain ⟨u, v, p, q, h1, h2, h3, h4⟩ := hk
  exact ⟨u, v, p, q, h1, h2.append h ht, h3.append h ht, h4⟩

theorem LWord.append {t : List (REv V)} {pc : PC w} (h : HbInv tr s) (ht : ∀ e ∈ t, ∀ op, e.1 ≠ .core (.invoke a op))
    (hx : Ext s s') (ho : s'.oldest a ≤ s.oldest a) (hk : LWord w cap tr s a pc) : LWord w cap (tr ++ t) s' a pc := by
  cases pc with
  | lenHead x =>
    obtain ⟨p, h1, h2, h3⟩ := hk
    refine ⟨p, h1.append h ht, by omega, h3.append ?_ (hx.view a).2⟩
    obtain ⟨c, -, h4, -⟩ := h1
    exact h4
  | lenTail x y =>
    obtain ⟨p, q, h1, h2, h3, h4, h5⟩ := hk
    exact ⟨p, q, h1.append h ht, by omega, h3.append h ht, h4, h5.append h3.2.1 (hx.view a).2⟩
  | _ => trivial

end

/-- What a step must establish. -/
structure LStep (w cap : Nat) (tr : List (REv V)) (s : RState w V) (a : OpId) (s' : RState w V) (hb : List Nat) (n : Nat)
    (evs : List (Event V)) : Prop where
  op : ∀ e ∈ evs, opOf e = a
  pc : ∀ b, b ≠ a → s'.pc b = s.pc b
  old : ∀ b, b ≠ a → s'.oldest b ≤ s.oldest b
  word : LWord w cap (tr ++ cstamp hb n evs) s' a (s'.pc a)
  ret : ∀ n, Event.ret a (.len n) ∈ evs → LenK w cap tr a n ∧ ∀ op, Event.invoke a op ∉ evs

structure LTr (w cap : Nat) (tr : List (REv V)) (s : RState w V) : Prop where
  words : ∀ a, LWord w cap tr s a (s.pc a)
  rets : ∀ k a n, At tr k (.ret a (.len n)) → LenK w cap (tr.take k) a n

theorem LTr.next {a : OpId} {evs : List (Event V)} {hb : List Nat} {n : Nat} (hl : LTr w cap tr s) (hi : HbInv tr s) (hx : Ext s s')
    (h : LStep w cap tr s a s' hb n evs) : LTr w cap (tr ++ cstamp hb n evs) s' := by
  have mem : ∀ e ∈ cstamp hb n evs, ∃ x ∈ evs, e.1 = .core x := by
    intro e he
    obtain ⟨k, hk⟩ := getElem?_of_mem' he
    obtain ⟨x, h1, h2⟩ := stamp_fst hk
    exact ⟨x, List.mem_of_getElem? h1, h2⟩
  refine ⟨fun b => ?_, fun k b i he => ?_⟩
  · by_cases hba : b = a
    · subst hba; exact h.word
    · rw [h.pc b hba]
      refine (hl.words b).append hi ?_ hx (h.old b hba)
      intro e he op hc
      obtain ⟨x, h1, h2⟩ := mem e he
      rw [hc] at h2
      cases h2
      exact hba (h.op _ h1)
  · rcases Nat.lt_or_ge k tr.length with hlt | hge
    · rw [List.take_append_of_le_length (by omega)]
      exact hl.rets k b i (he.of_append hlt)
    · have he' := List.mem_of_getElem? (he.new hge)
      have hba : b = a := h.op _ he'
      subst hba
      obtain ⟨h1, h2⟩ := h.ret i he'
      rw [List.take_append, List.take_of_length_le hge]
      refine LenK.append hi ?_ h1
      intro e h3 op hc
      obtain ⟨x, h4, h5⟩ := mem e (List.mem_of_mem_take h3)
      rw [hc] at h5
      cases h5
      exact h2 op h4

/-- Steps of the code other than those of `len`. -/
theorem run_nolen {c : Params w} {σ : State w V} {a : OpId} {k : State w V × List (Event V)}
    (h : runStep c cap σ a = some k) (h1 : σ.pc a ≠ .lenStart) (h2 : ∀ t, σ.pc a ≠ .lenHead t)
    (h3 : ∀ t u, σ.pc a ≠ .lenTail t u) :
    NoLen (k.1.pc a) ∧ (∀ e ∈ k.2, opOf e = a) ∧ ∀ b n, Event.ret b (.len n) ∉ k.2 := by
  unfold runStep at h
  split at h
  case h_15 => cases h
  case h_11 hpc => exact absurd hpc h1
  case h_12 hpc => exact absurd hpc (h2 _)
  case h_13 hpc => exact absurd hpc (h3 _ _)
  all_goals first | obtain rfl := Option.some.inj h | skip
  all_goals try unfold pushLoop
  all_goals try unfold pushCas
  all_goals try unfold pushHead
  all_goals try unfold popLoop
  all_goals try unfold popCas
  all_goals try unfold popTail
  all_goals try unfold closeStep
  all_goals try simp only
  all_goals repeat' split
  all_goals simp [NoLen, opOf, State.goto, upd_self]

theorem lstep_other {a : OpId} {hb : List Nat} {n : Nat} {evs : List (Event V)} {s1 : RState w V} {pc : PC w}
    (hop : ∀ e ∈ evs, opOf e = a) (hnr : ∀ b n, Event.ret b (.len n) ∉ evs) (hpc : s1.pc = upd s.pc a pc)
    (hn : NoLen pc) (hold : ∀ b, b ≠ a → s1.oldest b = s.oldest b) : LStep w cap tr s a s1 hb n evs := by
  refine ⟨hop, fun b hb => ?_, fun b hb => Nat.le_of_eq (hold b hb), ?_, fun n h => absurd h (hnr a n)⟩
  · rw [hpc]; exact upd_ne _ _ hb
  · rw [hpc, upd_self]; exact hn.word a

section
variable {a : OpId} {rd wr : Nat} {r : RState w V × List (REv V)}

/-- After a load that acquires. -/
theorem load_knows {l : Loc} {m : Msg w} {od : MOrd} {k : State w V × List (Event V)} (ho : od.acq = true) (hk : k.2 = []) :
    ∀ n, n ∈ (s.view a).hb ∨ n ∈ m.view.hb → n ∈ ((s.doLoad a l m od k).1.view a).hb := by
  intro n hn
  have e : (s.doLoad a l m od k).1.view a = ⟨(((s.view a).see l m.ts).join m.view).ts,
      List.range' (s.load a l m od.acq).now k.2.length ++ (((s.view a).see l m.ts).join m.view).hb⟩ := by
    show upd _ _ _ _ = _
    rw [upd_self]
    have : (s.load a l m od.acq).view a = ((s.view a).see l m.ts).join m.view := by
      show upd _ _ _ _ = _
      rw [upd_self, if_pos ho]
    rw [this]
  rw [e]
  refine List.mem_append_right _ ?_
  rcases hn with hn | hn
  · exact (View.le_join_left _ _).2 n hn
  · exact (View.le_join_right _ _).2 n hn

theorem load_oldest {l : Loc} {m : Msg w} {od : MOrd} {k : State w V × List (Event V)} :
    (s.doLoad a l m od k).1.oldest a = min (s.oldest a) m.born := upd_self ..

theorem lstep_load {hb : List Nat} {n : Nat} {l : Loc} {m : Msg w} {od : MOrd} {k : State w V × List (Event V)} (hk : k.2 = [])
    (hw : LWord w cap tr (s.doLoad a l m od k).1 a (k.1.pc a)) : LStep w cap tr s a (s.doLoad a l m od k).1 hb n k.2 := by
  refine ⟨by rw [hk]; simp, fun b hb => emit_pc_ne _ _ _ hb, fun b hb => Nat.le_of_eq (upd_ne _ _ hb), ?_, by rw [hk]; simp⟩
  rw [show (s.doLoad a l m od k).1.pc a = k.1.pc a from emit_pc_self .., hk,
    show cstamp hb n ([] : List (Event V)) = [] from rfl, List.append_nil]
  exact hw

theorem lstep_run (hw : WellSized w cap) (ho : LenOrders o) (hm : LMem tr s) (hl : LTr w cap tr s) (hk : KInv w cap tr s)
    (hi : RInv w cap tr s) (hb : HbInv tr s) (ht : Timely w cap tr s) (hs : s.run o cap a rd wr = some r) :
    ∃ hb n evs, r.2 = cstamp hb n evs ∧ LStep w cap tr s a r.1 hb n evs := by
  have hlw := hl.words a
  by_cases h1 : s.pc a = .lenStart
  · obtain ⟨m, k, hmr, hk', rfl⟩ := run_load (by rw [h1]; rfl) hs
    simp only [runStep, pc_snap, h1, Option.some.injEq] at hk'
    subst hk'
    refine ⟨_, _, _, rfl, lstep_load rfl ?_⟩
    rw [goto_pc_self, snap_tail]
    refine ⟨m.born, hk.lenTail hi hb hmr, ?_, fun n b i h2 h3 => load_knows ho.len rfl n (.inr ?_)⟩
    · rw [load_oldest]; exact Nat.min_le_right _ _
    · exact hm.tail m (readMsg_mem hmr) n b i h2 h3
  by_cases h2 : ∃ t, s.pc a = .lenHead t
  · obtain ⟨t, h2⟩ := h2
    obtain ⟨m, k, hmr, hk', rfl⟩ := run_load (by rw [h2]; rfl) hs
    simp only [runStep, pc_snap, h2, Option.some.injEq] at hk'
    subst hk'
    rw [h2] at hlw
    obtain ⟨p, h3, h4, h5⟩ := hlw
    refine ⟨_, _, _, rfl, lstep_load rfl ?_⟩
    rw [goto_pc_self, snap_head]
    refine ⟨p, m.deqs, h3, ?_, hk.lenHead hi hb hmr, ?_, fun n b i x h6 h7 => load_knows ho.len rfl n (.inr ?_)⟩
    · rw [load_oldest]; exact Nat.le_trans (Nat.min_le_left _ _) h4
    · -- the dequeue that made room for the `p`-th reservation is known
      rcases Nat.lt_or_ge (m.deqs + cap) p with hlt | hge
      · exfalso
        obtain ⟨c, -, h6, -⟩ := h3
        obtain ⟨n, b, i, -, h7, h8⟩ := reserve_before (tr := tr) (p := tr.length) (k := p - 1)
          (by rw [List.take_length]; omega)
        obtain ⟨n', b', i', x', ⟨e, h9, h10⟩, h11, h12⟩ := hi.dequeue_hb_reserve hw h7 (by omega)
        have h13 := h5 n b i h7 (by omega)
        have h14 := ((hb.view a n h13).2 e h9) n' h10
        have := hk.seesDeq hi hmr h14 h11
        omega
      · exact hge
    · exact hm.head m (readMsg_mem hmr) n b i x h6 h7
  by_cases h3 : ∃ t u, s.pc a = .lenTail t u
  · obtain ⟨t, u, h3⟩ := h3
    obtain ⟨m, k, hmr, hk', rfl⟩ := run_load (by rw [h3]; rfl) hs
    simp only [runStep, pc_snap, h3, snap_tail] at hk'
    split at hk'
    · rename_i hv
      obtain rfl := Option.some.inj hk'
      refine ⟨_, _, _, rfl, ?_⟩
      refine ⟨by simp [opOf], fun b hb => emit_pc_ne _ _ _ hb, fun b hb => Nat.le_of_eq (upd_ne _ _ hb), ?_, ?_⟩
      · rw [show (s.doLoad a .tail m o.len _).1.pc a = _ from emit_pc_self .., goto_pc_self]
        trivial
      · intro n hn
        refine ⟨?_, by simp⟩
        simp only [List.mem_singleton] at hn
        cases hn
        have hpend : Pend (evsOf tr) a .len := by
          have := hi.base.inv.pcs a
          rw [show s.core.pc a = _ from h3] at this
          exact this.1
        have htm := ht.at hpend
        rw [h3] at hlw
        obtain ⟨p, q, h4, h5, h6, h7, h8⟩ := hlw
        refine ⟨t, u, p, q, rfl, h4, h6, ?_, h7⟩
        -- the reservation of the last element dequeued is known
        have hq : q ≤ m.born := by
          rcases Nat.lt_or_ge m.born q with hlt | hge
          · exfalso
            obtain ⟨n, b, i, x, -, h9, h10⟩ := dequeue_before (tr := tr) (p := tr.length) (k := q - 1)
              (by rw [List.take_length]; have := h6.2.1; omega)
            obtain ⟨n', b', i', ⟨e, h11, h12⟩, h13, h14⟩ := hi.reserve_hb_dequeue hw h9
            have h15 := h8 n b i x h9 (by omega)
            have h16 := ((hb.view a n h15).2 e h11) n' h12
            have := hk.seesRes hi hmr h16 h13
            omega
          · exact hge
        obtain ⟨c, e1, e2, -⟩ := h4
        obtain ⟨c', e3, e4, -⟩ := hi.mem.tail m (readMsg_mem hmr)
        rw [hv, e1] at e3
        have := enc_inj hw (tailWord_inj hw e3).1 (by omega) (by omega)
        omega
    · obtain rfl := Option.some.inj hk'
      refine ⟨_, _, _, rfl, lstep_load rfl ?_⟩
      rw [goto_pc_self]
      trivial
  -- the other operations
  have key : ∀ {l v k}, runStep (Params.new w cap) cap (s.snap l v) a = some k →
      NoLen (k.1.pc a) ∧ (∀ e ∈ k.2, opOf e = a) ∧ ∀ b n, Event.ret b (.len n) ∉ k.2 := by
    intro l v k h
    exact run_nolen h h1 (fun t ht => h2 ⟨t, ht⟩) (fun t u ht => h3 ⟨t, u, ht⟩)
  cases hacc : o.acc (Params.new w cap) cap (s.pc a) with
  | none =>
    obtain ⟨k, hk', rfl⟩ := run_none hacc hs
    obtain ⟨e1, e2, e3⟩ := key hk'
    exact ⟨_, _, _, rfl, lstep_other e2 e3 rfl e1 fun b hb => rfl⟩
  | load l od =>
    obtain ⟨m, k, -, hk', rfl⟩ := run_load hacc hs
    obtain ⟨e1, e2, e3⟩ := key hk'
    exact ⟨_, _, _, rfl, lstep_other e2 e3 rfl e1 fun b hb => upd_ne _ _ hb⟩
  | rmw l od =>
    obtain ⟨m, k, -, -, hk', rfl⟩ := run_rmw hacc hs
    obtain ⟨e1, e2, e3⟩ := key hk'
    exact ⟨_, _, _, rfl, lstep_other e2 e3 rfl e1 fun b hb => upd_ne _ _ hb⟩
  | cas l e ok fail =>
    obtain ⟨m, k, -, hk', ⟨-, -, rfl⟩ | ⟨-, rfl⟩⟩ := run_cas hacc hs
    · obtain ⟨e1, e2, e3⟩ := key hk'
      exact ⟨_, _, _, rfl, lstep_other e2 e3 rfl e1 fun b hb => upd_ne _ _ hb⟩
    · obtain ⟨e1, e2, e3⟩ := key hk'
      exact ⟨_, _, _, rfl, lstep_other e2 e3 rfl e1 fun b hb => upd_ne _ _ hb⟩

end

theorem LTr.pres {act : RAct V} {r : RState w V × List (REv V)} (hw : WellSized w cap) (ho : LenOrders o)
    (hm : LMem tr s) (hl : LTr w cap tr s) (hk : KInv w cap tr s) (hi : RInv w cap tr s) (hb : HbInv tr s)
    (ht : Timely w cap tr s) (hs : rstep o cap s act = some r) : LTr w cap (tr ++ r.2) r.1 := by
  have hx := (rstep_shape hs).ext
  cases act with
  | invoke a op =>
    simp only [rstep, step] at hs
    obtain ⟨k, hk, rfl⟩ := Option.map_eq_some_iff.1 hs
    split at hk
    · obtain rfl := Option.some.inj hk
      refine hl.next hb hx (lstep_other (pc := startPC op) (by simp [opOf]) (by simp) ?_ ?_ (fun b hb => upd_ne _ _ hb))
      · show upd _ _ _ = _; rw [goto_pc_self]
      · cases op <;> trivial
    · cases hk
  | run a rd wr =>
    obtain ⟨h1, n, evs, h2, h3⟩ := lstep_run hw ho hm hl hk hi hb ht hs
    rw [h2]
    exact hl.next hb hx h3
  | spurious a rd =>
    simp only [rstep] at hs
    split at hs
    · split at hs
      · cases hs
      · obtain ⟨k, hk', rfl⟩ := Option.map_eq_some_iff.1 hs
        have key : NoLen (k.1.pc a) ∧ (∀ e ∈ k.2, opOf e = a) ∧ ∀ b n, Event.ret b (.len n) ∉ k.2 := by
          simp only [step] at hk'
          split at hk'
          · obtain rfl := Option.some.inj hk'
            unfold pushCas
            simp only
            repeat' split
            all_goals simp [NoLen, opOf, State.goto, upd_self]
          · obtain rfl := Option.some.inj hk'
            unfold popCas
            simp only
            repeat' split
            all_goals simp [NoLen, opOf, State.goto, upd_self]
          · cases hk'
        exact hl.next hb hx (lstep_other key.2.1 key.2.2 rfl key.1 fun b hb => upd_ne _ _ hb)
    · cases hs
  | elem a v n =>
    simp only [rstep, step] at hs
    split at hs
    · cases hs
    · split at hs
      · cases hs
      · obtain ⟨k, hk', rfl⟩ := Option.map_eq_some_iff.1 hs
        have key : NoLen (k.1.pc a) ∧ (∀ e ∈ k.2, opOf e = a) ∧ ∀ b n, Event.ret b (.len n) ∉ k.2 := by
          split at hk'
          · obtain rfl := Option.some.inj hk'
            unfold pushElem
            simp only
            split <;> simp [NoLen, opOf, State.goto, upd_self]
          · cases hk'
        exact hl.next hb hx (lstep_other key.2.1 key.2.2 rfl key.1 fun b hb => rfl)
  | elemPanic a v n =>
    simp only [rstep, step] at hs
    split at hs
    · cases hs
    · split at hs
      · cases hs
      · obtain ⟨k, hk', rfl⟩ := Option.map_eq_some_iff.1 hs
        have key : NoLen (k.1.pc a) ∧ (∀ e ∈ k.2, opOf e = a) ∧ ∀ b n, Event.ret b (.len n) ∉ k.2 := by
          split at hk'
          · obtain rfl := Option.some.inj hk'
            unfold pushElemPanic
            simp only
            split <;> simp [NoLen, opOf, State.goto, upd_self]
          · cases hk'
        refine hl.next hb hx (lstep_other key.2.1 key.2.2 (pc := k.1.pc a) ?_ key.1 fun b hb => ?_)
        · split <;> rfl
        · split <;> rfl
  | read a n =>
    simp only [rstep, step] at hs
    split at hs
    · cases hs
    · split at hs
      · cases hs
      · obtain ⟨k, hk', rfl⟩ := Option.map_eq_some_iff.1 hs
        have key : NoLen (k.1.pc a) ∧ (∀ e ∈ k.2, opOf e = a) ∧ ∀ b n, Event.ret b (.len n) ∉ k.2 := by
          split at hk'
          all_goals first | cases hk'; done | skip
          all_goals
            rename_i hpc
            obtain rfl := Option.some.inj hk'
            simp only
            rw [hpc]
            simp [NoLen, opOf]
        exact hl.next hb hx (lstep_other key.2.1 key.2.2 rfl key.1 fun b hb => rfl)
  | write a v =>
    simp only [rstep, step] at hs
    split at hs
    · cases hs
    · obtain ⟨k, hk', rfl⟩ := Option.map_eq_some_iff.1 hs
      have key : NoLen (k.1.pc a) ∧ (∀ e ∈ k.2, opOf e = a) ∧ ∀ b n, Event.ret b (.len n) ∉ k.2 := by
        split at hk'
        all_goals first | cases hk'; done | skip
        all_goals
          rename_i hpc
          obtain rfl := Option.some.inj hk'
          simp only
          rw [hpc]
          simp [NoLen, opOf]
      exact hl.next hb hx (lstep_other key.2.1 key.2.2 rfl key.1 fun b hb => rfl)
  | dropRef a wr =>
    simp only [rstep, step] at hs
    split at hs
    · cases hs
    · split at hs
      · obtain ⟨k, hk', rfl⟩ := Option.map_eq_some_iff.1 hs
        have key : NoLen (k.1.pc a) ∧ (∀ e ∈ k.2, opOf e = a) ∧ ∀ b n, Event.ret b (.len n) ∉ k.2 := by
          split at hk'
          all_goals first | cases hk'; done | skip
          all_goals
            obtain rfl := Option.some.inj hk'
            simp [NoLen, opOf, State.goto, upd_self]
        exact hl.next hb hx (lstep_other key.2.1 key.2.2 rfl key.1 fun b hb => rfl)
      · cases hs
  | sync a b =>
    simp only [rstep, Option.some.injEq] at hs
    subst hs
    refine ⟨fun c => ?_, by rw [List.append_nil]; exact hl.rets⟩
    exact (hl.words c).append hb (by simp) hx (Nat.le_refl _)

theorem RExec.len (hw : WellSized w cap) (hs : Synchronised o) (ho : LenOrders o) (h : RExec o w cap tr s) :
    LMem tr s ∧ LTr w cap tr s := by
  induction h with
  | init => exact ⟨LMem.init, fun _ => trivial, fun n a r h => by simp [AtX] at h⟩
  | step h1 h2 h3 ih =>
    have hi := h1.inv hw hs
    exact ⟨ih.1.pres ho hi (rstep_shape h2), ih.2.pres hw ho ih.1 (h1.know hw hs).1 hi h1.hbInv h1.timely h2⟩

end Thingbuf.RA
