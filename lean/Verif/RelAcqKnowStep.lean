import Verif.RelAcqKnow
import Verif.TraceProps
/-
The knowledge of the operations in the executions of the release/acquire machine, and what follows for
the results of the calls.
-/
namespace Thingbuf.RA

variable {w cap : Nat} {V : Type} {o : Orders} {tr : List (REv V)} {s s' : RState w V}

/-! ### Views -/

structure KInv (w cap : Nat) (tr : List (REv V)) (s : RState w V) : Prop where
  kv : KView cap tr s
  head : ∀ (j k : Nat) m m', j < k → (s.mem .head)[j]? = some m → (s.mem .head)[k]? = some m' → m.deqs ≤ m'.deqs
  tail : ∀ (j k : Nat) m m' p, j < k → (s.mem .tail)[j]? = some m → (s.mem .tail)[k]? = some m' →
    m.val = tailWord w cap p true → ∃ p', m'.val = tailWord w cap p' true
  res : ∀ (j k : Nat) m m', j < k → (s.mem .tail)[j]? = some m → (s.mem .tail)[k]? = some m' → m.born ≤ m'.born

theorem KInv.init : KInv w cap ([] : List (REv V)) (RState.init w V) := by
  refine ⟨⟨fun _ => Know.bot, fun l m hm => ?_⟩, ?_, ?_, ?_⟩
  · rw [List.mem_singleton.1 hm]; exact Know.bot
  · intro j k m m' hjk h1 h2
    have := lt_of_getElem?_some h2
    simp only [RState.init, List.length_singleton] at this
    omega
  · intro j k m m' p hjk h1 h2
    have := lt_of_getElem?_some h2
    simp only [RState.init, List.length_singleton] at this
    omega
  · intro j k m m' hjk h1 h2
    have := lt_of_getElem?_some h2
    simp only [RState.init, List.length_singleton] at this
    omega

theorem closedB_mono {t u : Trace V} (h : closedB t = true) : closedB (t ++ u) = true := by
  obtain ⟨a, ha⟩ := closedB_iff.1 h
  exact closedB_iff.2 ⟨a, List.mem_append_left _ ha⟩

/-- The order of the messages, after a write to `head` or `tail`. -/
theorem KInv.order {t : List (REv V)} (hw : WellSized w cap) (hk : KInv w cap tr s) (hi : RInv w cap tr s)
    (hi' : RInv w cap (tr ++ t) s') (hkv : KView cap (tr ++ t) s')
    (hh : s'.mem .head = s.mem .head ∨ ∃ m, s'.mem .head = s.mem .head ++ [m] ∧ m.deqs = nDeq (evsOf (tr ++ t)))
    (ht : s'.mem .tail = s.mem .tail ∨ ∃ m, s'.mem .tail = s.mem .tail ++ [m] ∧ m.born = nRes (evsOf (tr ++ t))) :
    KInv w cap (tr ++ t) s' := by
  refine ⟨hkv, ?_, ?_, ?_⟩
  · rcases hh with hh | ⟨x, hh, hx⟩
    · rw [hh]; exact hk.head
    · intro j k m m' hjk h1 h2
      have hm := (hi'.mem.head m (List.mem_of_getElem? h1)).2.1
      rw [hh] at h1 h2
      rcases snoc_some h2 with h2 | ⟨h2, rfl⟩
      · rcases snoc_some h1 with h1 | ⟨h1, -⟩
        · exact hk.head j k m m' hjk h1 h2
        · have := lt_of_getElem?_some h2; omega
      · rw [hx]; exact hm
  · rcases ht with ht | ⟨x, ht, -⟩
    · rw [ht]; exact hk.tail
    · intro j k m m' p hjk h1 h2 hv
      obtain ⟨c, hc1, -, hc2⟩ := hi'.mem.tail m (List.mem_of_getElem? h1)
      rw [ht] at h1 h2
      rcases snoc_some h2 with h2 | ⟨h2, rfl⟩
      · rcases snoc_some h1 with h1 | ⟨h1, -⟩
        · exact hk.tail j k m m' p hjk h1 h2 hv
        · have := lt_of_getElem?_some h2; omega
      · rw [hv] at hc1
        have hct := (tailWord_inj hw hc1).2
        have hl : s'.last .tail = m'.val := last_of_getLast? (by rw [ht]; simp)
        have := hi'.base.inv.tail
        rw [show s'.core.tail = s'.last .tail from rfl, hl, hc2 hct.symm] at this
        exact ⟨_, this⟩
  · rcases ht with ht | ⟨x, ht, hx⟩
    · rw [ht]; exact hk.res
    · intro j k m m' hjk h1 h2
      obtain ⟨-, -, hm, -⟩ := hi'.mem.tail m (List.mem_of_getElem? h1)
      rw [ht] at h1 h2
      rcases snoc_some h2 with h2 | ⟨h2, rfl⟩
      · rcases snoc_some h1 with h1 | ⟨h1, -⟩
        · exact hk.res j k m m' hjk h1 h2
        · have := lt_of_getElem?_some h2; omega
      · rw [hx]; exact hm

theorem emit_res (s : RState w V) (a : OpId) (pc : PC w) (evs : List (Event V)) :
    (s.emit a pc evs).1.res = s.res + nRes evs := rfl

theorem nRes_take {evs : List (Event V)} {k : Nat} {b : OpId} {i : Nat}
    (h : evs[k]? = some (.reserve b i)) : nRes (evs.take k) < nRes evs := by
  have hk := lt_of_getElem?_some h
  have e : evs = evs.take k ++ (Event.reserve b i :: evs.drop (k + 1)) := by
    have h2 : evs[k] = .reserve b i := by rw [List.getElem?_eq_getElem hk] at h; exact Option.some.inj h
    rw [← h2, ← List.drop_eq_getElem_cons hk, List.take_append_drop]
  have e2 := congrArg nRes e
  rw [nRes_append] at e2
  have : 0 < nRes (Event.reserve b i :: evs.drop (k + 1)) := by simp [nRes, resOps]
  omega

theorem emit_deq (s : RState w V) (a : OpId) (pc : PC w) (evs : List (Event V)) :
    (s.emit a pc evs).1.deq = s.deq + nDeq evs := rfl

theorem nDeq_take {evs : List (Event V)} {k : Nat} {b : OpId} {i : Nat} {x : Option V}
    (h : evs[k]? = some (.dequeue b i x)) : nDeq (evs.take k) < nDeq evs := by
  have hk := lt_of_getElem?_some h
  have e : evs = evs.take k ++ (Event.dequeue b i x :: evs.drop (k + 1)) := by
    have h2 : evs[k] = .dequeue b i x := by rw [List.getElem?_eq_getElem hk] at h; exact Option.some.inj h
    rw [← h2, ← List.drop_eq_getElem_cons hk, List.take_append_drop]
  have e2 := congrArg nDeq e
  rw [nDeq_append] at e2
  have : 0 < nDeq (Event.dequeue b i x :: evs.drop (k + 1)) := by simp [nDeq, deqOps]
  omega

theorem evsOf_stamp_take (hb : List Nat) (n k : Nat) (evs : List (Event V)) :
    evsOf ((cstamp hb n evs).take k) = evs.take k := by
  rw [evsOf_map, List.map_take, cstamp, stamp_map, ← List.map_take, List.filterMap_map]
  exact List.filterMap_some

theorem KInv.pres {r : RState w V × List (REv V)} (hw : WellSized w cap) (hk : KInv w cap tr s) (hi : RInv w cap tr s)
    (hsh : Shape o s r) (hi' : RInv w cap (tr ++ r.2) r.1) : KInv w cap (tr ++ r.2) r.1 := by
  cases hsh with
  | emit a pc evs s1 hm hv hn hp =>
    refine hk.order hw hi hi' ((hk.kv.congr hm hv).emit (hn.trans hi.now) hp) (.inl ?_) (.inl ?_)
    · show s1.mem .head = _; rw [hm]
    · show s1.mem .tail = _; rw [hm]
  | load a l rd m od k hm hp =>
    exact hk.order hw hi hi' ((hk.kv.load (readMsg_mem hm)).emit hi.now hp) (.inl rfl) (.inl rfl)
  | sync a b =>
    refine hk.order hw hi hi' ?_ (.inl rfl) (.inl rfl)
    rw [List.append_nil]
    refine ⟨fun c => ?_, fun l m hm => (hk.kv.msgs l m hm).congr rfl⟩
    show Know cap tr _ (upd s.view b _ c)
    by_cases hc : c = b
    · subst hc
      rw [upd_self]
      exact ((hk.kv.views c).join (hk.kv.views a)).congr rfl
    · rw [upd_ne _ _ hc]; exact (hk.kv.views c).congr rfl
  | commit a i wr ns rel hpc ht =>
    refine hk.order hw hi hi' ?_ (.inl (put_mem_ne _ _ _ _ _ _ _ (by simp))) (.inl (put_mem_ne _ _ _ _ _ _ _ (by simp)))
    refine hk.kv.write hi.now Know.bot ?_
    intro n ts hn hts
    have hpi := hi.base.inv.pcs a
    rw [show s.core.pc a = _ from hpc] at hpi
    obtain ⟨p, hpa, -, rfl, rfl, v, -⟩ := hpi
    have hge := hi.base.inv.ge
    have hl : (s.mem (.slot (p % cap))).length = 2 * (p / cap) + 1 := by
      rcases (hi.len p hpa.nd (by have := hpa.lt; omega)).1 hpa.lt with h | h
      · exact h.2
      · exact absurd ⟨p, rfl, .inl hpa⟩ (pub_not_own hw hi.base.inv hpa.nd hpa.lt h.1 a)
    have key : ∀ e, At (tr ++ (s.emit a .done [.commit a (p % cap) (s.core.val (p % cap))]).2) n e →
        e = .commit a (p % cap) (s.core.val (p % cap)) := by
      intro e he
      have := List.mem_of_getElem? (he.new hn)
      simpa using this
    refine ⟨?_, fun _ _ _ he => (by cases key _ he), fun _ he => (by cases key _ he), fun _ _ he => (by cases key _ he)⟩
    intro b j x he
    cases key _ he
    obtain ⟨m, h1, -, h2, -⟩ := put_mem_self (s.emit a .done [.commit a (p % cap) (s.core.val (p % cap))]).1 a
      (.slot (p % cap)) (wr - 1) wr (enc w cap p + 1#w) rel .bot
    refine ⟨p, m, ?_, ?_, by rw [h2]; exact hts⟩
    · rw [evsOf_append, resOps_append]
      exact getElem?_append_of_some hpa.res
    · rw [h1]
      rw [show ((s.emit a .done [.commit a (p % cap) (s.core.val (p % cap))]).1.mem (.slot (p % cap))) =
        s.mem (.slot (p % cap)) from rfl, List.getElem?_append_right (by omega), hl, Nat.sub_self]
      rfl
  | release a i wr ns rel hpc ht =>
    refine hk.order hw hi hi' ?_ (.inl (put_mem_ne _ _ _ _ _ _ _ (by simp))) (.inl (put_mem_ne _ _ _ _ _ _ _ (by simp)))
    refine hk.kv.write hi.now Know.bot ?_
    intro n ts hn hts
    have key : ∀ e, At (tr ++ (s.emit a .done [.release a i (s.core.val i)]).2) n e →
        e = .release a i (s.core.val i) := by
      intro e he
      have := List.mem_of_getElem? (he.new hn)
      simpa using this
    exact ⟨fun _ _ _ he => (by cases key _ he), fun _ _ _ he => (by cases key _ he), fun _ he => (by cases key _ he),
      fun _ _ he => (by cases key _ he)⟩
  | rmw a l rd wr m od k hl hm hf hc hd hcl hre =>
    have hmm := readMsg_mem hm
    obtain ⟨x, h1, -, h2, h3, h5, h4, -⟩ := put_mem_self ((s.load a l m od.acq).emit a (k.1.pc a) k.2).1 a l m.ts wr
      (cell k.1 l) od.rel m.view
    have hT : evsOf (tr ++ (s.doRmw a l m od wr k).2) = evsOf tr ++ k.2 := by
      rw [evsOf_append]; congr 1; exact evsOf_stamp ..
    have hxd : x.deqs = nDeq (evsOf (tr ++ (s.doRmw a l m od wr k).2)) := by
      rw [h4, hT, nDeq_append, ← hi.deq]; rfl
    have hxr : x.born = nRes (evsOf (tr ++ (s.doRmw a l m od wr k).2)) := by
      rw [h5, hT, nRes_append, ← hi.res]; rfl
    have hmem : (s.doRmw a l m od wr k).1.mem l = s.mem l ++ [x] := h1
    refine hk.order hw hi hi' ?_ ?_ ?_
    · refine (hk.kv.load hmm).write hi.now ((hk.kv.msgs l m hmm).congr rfl) ?_
      intro n ts hn hts
      refine ⟨fun b i y he => (hc b i y (List.mem_of_getElem? (he.new hn))).elim, ?_, ?_, ?_⟩
      · intro b i y he
        have he' := he.new hn
        obtain rfl := hd ⟨b, i, y, List.mem_of_getElem? he'⟩
        refine ⟨x, by rw [h1]; simp, ?_, by rw [h2]; exact hts⟩
        rw [List.take_append, List.take_of_length_le hn]
        have e : evsOf (((s.load a .head m od.acq).emit a (k.1.pc a) k.2).2.take (n - tr.length)) =
            k.2.take (n - tr.length) := evsOf_stamp_take ..
        rw [evsOf_append, e, nDeq_append, h4, emit_deq, show (s.load a .head m od.acq).deq = s.deq from rfl, hi.deq]
        have := nDeq_take he'
        omega
      · intro b he
        have he' := he.new hn
        obtain rfl := hcl ⟨b, List.mem_of_getElem? he'⟩
        refine ⟨x, nRes (evsOf (tr ++ (s.doRmw a .tail m od wr k).2)), by rw [h1]; simp, ?_, by rw [h2]; exact hts⟩
        have hl : (s.doRmw a .tail m od wr k).1.last .tail = x.val := last_of_getLast? (by rw [hmem]; simp)
        have := hi'.base.inv.tail
        rw [show (s.doRmw a .tail m od wr k).1.core.tail = (s.doRmw a .tail m od wr k).1.last .tail from rfl, hl] at this
        rw [this]
        congr 1
        rw [hT]
        exact closedB_iff.2 ⟨b, List.mem_append_right _ (List.mem_of_getElem? he')⟩
      · intro b i he
        have he' := he.new hn
        obtain rfl := hre ⟨b, i, List.mem_of_getElem? he'⟩
        refine ⟨x, by rw [h1]; simp, ?_, by rw [h2]; exact hts⟩
        rw [List.take_append, List.take_of_length_le hn]
        have e : evsOf (((s.load a .tail m od.acq).emit a (k.1.pc a) k.2).2.take (n - tr.length)) =
            k.2.take (n - tr.length) := evsOf_stamp_take ..
        rw [evsOf_append, e, nRes_append, h5, emit_res, show (s.load a .tail m od.acq).res = s.res from rfl, hi.res]
        have := nRes_take he'
        omega
    · by_cases h : l = .head
      · subst h; exact .inr ⟨x, hmem, hxd⟩
      · exact .inl (put_mem_ne _ _ _ _ _ _ _ (Ne.symm h))
    · by_cases h : l = .tail
      · subst h; exact .inr ⟨x, hmem, hxr⟩
      · exact .inl (put_mem_ne _ _ _ _ _ _ _ (Ne.symm h))

/-! ### What was known when a call began -/

/-- The event at position `n` happened before operation `a` was called. -/
def Before (tr : List (REv V)) (a : OpId) (n : Nat) : Prop := ∃ i op, At tr i (.invoke a op) ∧ HB tr n i

/-- The queue was closed before operation `a` was called. -/
def ClosedBefore (tr : List (REv V)) (a : OpId) : Prop := ∃ n b, Before tr a n ∧ At tr n (.close b)

/-- Everything dequeued before operation `a` was called is older than the `q`-th element. -/
def Past (tr : List (REv V)) (a : OpId) (q : Nat) : Prop :=
  ∀ n b i x, Before tr a n → At tr n (.dequeue b i x) → nDeq (evsOf (tr.take n)) < q

/-- The `q`-th push was not finished before operation `a` was called. -/
def NotReady (tr : List (REv V)) (a : OpId) (q : Nat) : Prop :=
  ∀ n b i x, Before tr a n → At tr n (.commit b i x) → ∃ k, (resOps (evsOf tr))[k]? = some b ∧ k ≠ q

/-- A pop may find nothing. -/
def EmptyK (tr : List (REv V)) (a : OpId) : Prop := ∃ q, q ≤ nDeq (evsOf tr) ∧ Past tr a q ∧ NotReady tr a q

/-- The queue was closed, and then operation `a` was called (which need not know of the close). -/
def ClosedEarlier (tr : List (REv V)) (a : OpId) : Prop := ∃ n b i op, n < i ∧ At tr n (.close b) ∧ At tr i (.invoke a op)

/-- A pop may say `Empty`: if the queue was closed earlier, only because of an element that it does not see. -/
def OpenK (tr : List (REv V)) (a : OpId) : Prop :=
  ∃ q, q ≤ nDeq (evsOf tr) ∧ Past tr a q ∧ NotReady tr a q ∧ (ClosedEarlier tr a → q < nRes (evsOf tr))

theorem OpenK.empty {a : OpId} (h : OpenK tr a) : EmptyK tr a := by
  obtain ⟨q, h1, h2, h3, -⟩ := h
  exact ⟨q, h1, h2, h3⟩

/-- The words that an operation carries around, and what was known when it was called. -/
def KWord (w cap : Nat) (tr : List (REv V)) (s : RState w V) (a : OpId) : PC w → Prop
  | .pushLoop _ t => ClosedBefore tr a → ∃ p, t = tailWord w cap p true
  | .pushHead _ _ => ¬ ClosedBefore tr a
  | .popLoop _ h => ∃ q, h = enc w cap q ∧ q ≤ nDeq (evsOf tr) ∧ s.oldest a ≤ q + cap ∧ Past tr a q
  | .popTail _ h => ∃ q, h = enc w cap q ∧ q ≤ nDeq (evsOf tr) ∧ s.oldest a ≤ q + cap ∧ Past tr a q ∧
      NotReady tr a q
  | _ => True

/-- What the results of the calls say about what was known. -/
def RetK (tr : List (REv V)) (a : OpId) : Ret → Prop
  | .full => ¬ ClosedBefore tr a
  | .empty => OpenK tr a
  | .closed => Event.invoke a .pop ∈ evsOf tr → EmptyK tr a
  | _ => True

structure KTr (w cap : Nat) (tr : List (REv V)) (s : RState w V) : Prop where
  words : ∀ a, KWord w cap tr s a (s.pc a)
  rets : ∀ n a r, At tr n (.ret a r) → RetK (tr.take n) a r

theorem HB.append {p q : Nat} {t : List (REv V)} (h : HB tr p q) : HB (tr ++ t) p q := by
  obtain ⟨e, h1, h2⟩ := h
  exact ⟨e, getElem?_append_of_some h1, h2⟩

theorem Before.of_append {t : List (REv V)} {a : OpId} {n : Nat}
    (ht : ∀ e ∈ t, ∀ op, e.1 ≠ .core (.invoke a op)) (h : Before (tr ++ t) a n) : Before tr a n := by
  obtain ⟨i, op, h1, e, h2, h3⟩ := h
  have hi : i < tr.length := by
    rcases Nat.lt_or_ge i tr.length with h | h
    · exact h
    · exfalso
      rw [List.getElem?_append_right h] at h2
      simp only [AtX, List.map_append] at h1
      rw [List.getElem?_append_right (by simpa using h), List.length_map, List.getElem?_map, h2] at h1
      exact ht e (List.mem_of_getElem? h2) op (Option.some.inj h1)
  rw [List.getElem?_append_left hi] at h2
  exact ⟨i, op, h1.of_append hi, e, h2, h3⟩

theorem Before.lt (h : HbInv tr s) {a : OpId} {n : Nat} (hb : Before tr a n) : n < tr.length := by
  obtain ⟨i, op, h1, e, h2, h3⟩ := hb
  have := (h.ord i e h2 n h3).1
  have := lt_of_getElem?_some h2
  omega

/-- What was known when the call began is still known. -/
theorem Before.mem (h : HbInv tr s) {a : OpId} {n : Nat} (hb : Before tr a n) : n ∈ (s.view a).hb := by
  obtain ⟨i, op, h1, e, h2, h3⟩ := hb
  have he : e.1 = .core (.invoke a op) := by
    simp only [AtX, List.getElem?_map, h2] at h1
    exact Option.some.inj h1
  have h4 := h.po i e h2
  rw [he] at h4
  exact (h.view a i h4).2 e h2 n h3

section
variable {t : List (REv V)} {a : OpId}

theorem ClosedBefore.of_append (h : HbInv tr s) (ht : ∀ e ∈ t, ∀ op, e.1 ≠ .core (.invoke a op))
    (hc : ClosedBefore (tr ++ t) a) : ClosedBefore tr a := by
  obtain ⟨n, b, h1, h2⟩ := hc
  have h1 := h1.of_append ht
  exact ⟨n, b, h1, h2.of_append (h1.lt h)⟩

theorem Past.append {q : Nat} (h : HbInv tr s) (ht : ∀ e ∈ t, ∀ op, e.1 ≠ .core (.invoke a op))
    (hp : Past tr a q) : Past (tr ++ t) a q := by
  intro n b i x h1 h2
  have h1 := h1.of_append ht
  have h3 := h1.lt h
  rw [List.take_append_of_le_length (by omega)]
  exact hp n b i x h1 (h2.of_append h3)

theorem NotReady.append {q : Nat} (h : HbInv tr s) (ht : ∀ e ∈ t, ∀ op, e.1 ≠ .core (.invoke a op))
    (hp : NotReady tr a q) : NotReady (tr ++ t) a q := by
  intro n b i x h1 h2
  have h1 := h1.of_append ht
  obtain ⟨k, h4, h5⟩ := hp n b i x h1 (h2.of_append (h1.lt h))
  refine ⟨k, ?_, h5⟩
  rw [evsOf_append, resOps_append]
  exact getElem?_append_of_some h4

theorem KWord.append {s0 : RState w V} {pc : PC w} (h : HbInv tr s0) (ht : ∀ e ∈ t, ∀ op, e.1 ≠ .core (.invoke a op))
    (ho : s'.oldest a ≤ s.oldest a) (hk : KWord w cap tr s a pc) : KWord w cap (tr ++ t) s' a pc := by
  have hn : nDeq (evsOf tr) ≤ nDeq (evsOf (tr ++ t)) := by rw [evsOf_append, nDeq_append]; omega
  cases pc with
  | pushLoop b x => exact fun hc => hk (hc.of_append h ht)
  | pushHead b x => exact fun hc => hk (hc.of_append h ht)
  | popLoop b x =>
    obtain ⟨q, h1, h2, h3, h4⟩ := hk
    exact ⟨q, h1, by omega, by omega, h4.append h ht⟩
  | popTail b x =>
    obtain ⟨q, h1, h2, h3, h4, h5⟩ := hk
    exact ⟨q, h1, by omega, by omega, h4.append h ht, h5.append h ht⟩
  | _ => trivial

theorem EmptyK.append (h : HbInv tr s) (ht : ∀ e ∈ t, ∀ op, e.1 ≠ .core (.invoke a op))
    (hk : EmptyK tr a) : EmptyK (tr ++ t) a := by
  obtain ⟨q, h1, h2, h3⟩ := hk
  refine ⟨q, ?_, h2.append h ht, h3.append h ht⟩
  rw [evsOf_append, nDeq_append]; omega

theorem ClosedEarlier.of_append (ht : ∀ e ∈ t, ∀ op, e.1 ≠ .core (.invoke a op)) (hc : ClosedEarlier (tr ++ t) a) : ClosedEarlier tr a := by
  obtain ⟨n, b, i, op, h1, h2, h3⟩ := hc
  have hi : i < tr.length := by
    rcases Nat.lt_or_ge i tr.length with h | h
    · exact h
    · exfalso
      simp only [AtX, List.map_append] at h3
      rw [List.getElem?_append_right (by simpa using h)] at h3
      obtain ⟨e, h4, h5⟩ := List.mem_map.1 (List.mem_of_getElem? h3)
      exact ht e h4 op h5
  exact ⟨n, b, i, op, h1, h2.of_append (by omega), h3.of_append hi⟩

theorem OpenK.append (h : HbInv tr s) (ht : ∀ e ∈ t, ∀ op, e.1 ≠ .core (.invoke a op))
    (hk : OpenK tr a) : OpenK (tr ++ t) a := by
  obtain ⟨q, h1, h2, h3, h4⟩ := hk
  refine ⟨q, ?_, h2.append h ht, h3.append h ht, fun hc => ?_⟩
  · rw [evsOf_append, nDeq_append]; omega
  · have := h4 (hc.of_append ht)
    rw [evsOf_append]
    simp only [nRes, resOps_append, List.length_append] at this ⊢
    omega

theorem RetK.append {r : Ret} (h : HbInv tr s) (ht : ∀ e ∈ t, ∀ op, e.1 ≠ .core (.invoke a op))
    (hk : RetK tr a r) : RetK (tr ++ t) a r := by
  cases r with
  | full => exact fun hc => hk (hc.of_append h ht)
  | empty => exact OpenK.append h ht hk
  | closed =>
    intro hm
    refine EmptyK.append h ht (hk ?_)
    rw [evsOf_append] at hm
    rcases List.mem_append.1 hm with hm | hm
    · exact hm
    · obtain ⟨e, he, h2⟩ := List.mem_filterMap.1 hm
      cases hx : e.1 with
      | core y => rw [hx] at h2; cases h2; exact absurd hx (ht e he _)
      | cell y => rw [hx] at h2; cases h2
  | _ => trivial

end

/-! ### Reading -/

theorem Mem.idx_le {T : Trace V} (hm : Mem w cap T s) {l : Loc} {j k : Nat} {m m' : Msg w}
    (h1 : (s.mem l)[j]? = some m) (h2 : (s.mem l)[k]? = some m') (h : m.ts ≤ m'.ts) : j ≤ k := by
  rcases Nat.lt_or_ge k j with hlt | hge
  · have := hm.sorted l k j m' m hlt h2 h1; omega
  · exact hge

theorem KInv.readHead (hk : KInv w cap tr s) (hi : RInv w cap tr s) (hb : HbInv tr s) {a : OpId} {rd : Nat} {m : Msg w}
    (hm : s.readMsg a .head rd = some m) : Past tr a m.deqs := by
  intro n b i x h1 h2
  obtain ⟨m0, h3, h4, h5⟩ := (hk.kv.views a n (h1.mem hb)).2.dequeue b i x h2
  obtain ⟨hmm, rfl, hle⟩ := readMsg_spec hm
  obtain ⟨j, hj⟩ := getElem?_of_mem' h3
  obtain ⟨k, hk'⟩ := getElem?_of_mem' hmm
  have hjk := hi.mem.idx_le hj hk' (by omega)
  rcases Nat.eq_or_lt_of_le hjk with rfl | hlt
  · rw [hj] at hk'; cases hk'; exact h4
  · have := hk.head j k _ _ hlt hj hk'; omega

theorem KInv.readTail (hk : KInv w cap tr s) (hi : RInv w cap tr s) (hb : HbInv tr s) {a : OpId} {rd : Nat} {m : Msg w}
    (hm : s.readMsg a .tail rd = some m) (hc : ClosedBefore tr a) : ∃ p, m.val = tailWord w cap p true := by
  obtain ⟨n, b, h1, h2⟩ := hc
  obtain ⟨m0, p, h3, h4, h5⟩ := (hk.kv.views a n (h1.mem hb)).2.close b h2
  obtain ⟨hmm, rfl, hle⟩ := readMsg_spec hm
  obtain ⟨j, hj⟩ := getElem?_of_mem' h3
  obtain ⟨k, hk'⟩ := getElem?_of_mem' hmm
  have hjk := hi.mem.idx_le hj hk' (by omega)
  rcases Nat.eq_or_lt_of_le hjk with rfl | hlt
  · rw [hj] at hk'; cases hk'; exact ⟨p, h4⟩
  · exact hk.tail j k _ _ p hlt hj hk' h4

theorem KInv.readSlot (hw : WellSized w cap) (hk : KInv w cap tr s) (hi : RInv w cap tr s) (hb : HbInv tr s) {a : OpId}
    {rd q : Nat} {m : Msg w} (hm : s.readMsg a (.slot (q % cap)) rd = some m) (hv : m.val = enc w cap q)
    (hq : q ≤ nDeq (evsOf tr)) (hol : s.oldest a ≤ q + cap)
    (ht : nRes (evsOf tr) + 2 * cap < min (s.oldest a) m.born + period w cap) : NotReady tr a q := by
  intro n b i x h1 h2
  obtain ⟨k, m0, h3, h4, h5⟩ := (hk.kv.views a n (h1.mem hb)).2.commit b i x h2
  refine ⟨k, h3, ?_⟩
  rintro rfl
  have hpos := hw.1
  have hper := period_ge hw
  have hle := hi.base.inv.le
  obtain ⟨hmm, rfl, hlt⟩ := readMsg_spec hm
  obtain ⟨j, hj⟩ := getElem?_of_mem' hmm
  have hjk := hi.mem.idx_le h4 hj (by omega)
  obtain ⟨i, rfl | rfl⟩ : ∃ i, j = 2 * i ∨ j = 2 * i + 1 := ⟨j / 2, by omega⟩
  · obtain ⟨e1, e2, e3, e4⟩ := hi.mem.even _ (Nat.mod_lt _ hpos) _ _ hj
    rw [hv] at e1
    have hpe := enc_inj hw e1 (by omega) (by omega)
    have : i = k / cap := by
      rw [hpe, Nat.add_mul_div_right _ _ hpos, Nat.div_eq_of_lt (Nat.mod_lt _ hpos)]
      omega
    omega
  · obtain ⟨e1, -⟩ := hi.mem.odd _ (Nat.mod_lt _ hpos) _ _ hj
    rw [hv] at e1
    exact enc_ne_enc_succ hw (by simp) e1

/-! ### The steps -/

/-- What a step of operation `a`, other than its call, must establish. -/
structure KStep (w cap : Nat) (tr : List (REv V)) (s : RState w V) (a : OpId) (s' : RState w V) (evs : List (Event V)) :
    Prop where
  op : ∀ e ∈ evs, opOf e = a ∧ ∀ b op, e ≠ .invoke b op
  pc : ∀ b, b ≠ a → s'.pc b = s.pc b
  old : ∀ b, b ≠ a → s'.oldest b ≤ s.oldest b
  word : KWord w cap tr s' a (s'.pc a)
  ret : ∀ r, Event.ret a r ∈ evs → RetK tr a r

theorem KTr.next {a : OpId} {evs : List (Event V)} {hb : List Nat} {n : Nat} (hk : KTr w cap tr s) (hi : HbInv tr s)
    (h : KStep w cap tr s a s' evs) : KTr w cap (tr ++ cstamp hb n evs) s' := by
  have hni : ∀ b, ∀ e ∈ cstamp hb n evs, ∀ op, e.1 ≠ .core (.invoke b op) := by
    intro b e he op hx
    obtain ⟨k, hk⟩ := getElem?_of_mem' he
    obtain ⟨x, h1, h2⟩ := stamp_fst hk
    rw [hx] at h2
    cases h2
    exact (h.op _ (List.mem_of_getElem? h1)).2 b op rfl
  refine ⟨fun b => ?_, fun k b r he => ?_⟩
  · by_cases hba : b = a
    · subst hba
      exact h.word.append hi (hni b) (Nat.le_refl _)
    · rw [h.pc b hba]
      exact (hk.words b).append hi (hni b) (h.old b hba)
  · rcases Nat.lt_or_ge k tr.length with hlt | hge
    · rw [List.take_append_of_le_length (by omega)]
      exact hk.rets k b r (he.of_append hlt)
    · have he' := List.mem_of_getElem? (he.new hge)
      have hba : b = a := (h.op _ he').1
      subst hba
      rw [List.take_append, List.take_of_length_le hge]
      exact RetK.append hi (fun e h1 => hni b e (List.mem_of_mem_take h1)) (h.ret r he')

theorem emit_pc_ne (s : RState w V) {a b : OpId} (pc : PC w) (evs : List (Event V)) (h : b ≠ a) :
    (s.emit a pc evs).1.pc b = s.pc b := upd_ne _ _ h

theorem emit_pc_self (s : RState w V) (a : OpId) (pc : PC w) (evs : List (Event V)) :
    (s.emit a pc evs).1.pc a = pc := upd_self ..

theorem oldest_load_ne (s : RState w V) {a b : OpId} (l : Loc) (m : Msg w) (q : Bool) (h : b ≠ a) :
    (s.load a l m q).oldest b = s.oldest b := upd_ne _ _ h

/-- The call itself. -/
theorem KTr.invoke {a : OpId} {op : Op} {hb : List Nat} {n : Nat} (hk : KTr w cap tr s) (hi : HbInv tr s)
    (hr : RInv w cap tr s) (hidle : s.pc a = .idle) (hpc : ∀ b, b ≠ a → s'.pc b = s.pc b)
    (hpa : s'.pc a = startPC op)
    (hold : ∀ b, b ≠ a → s'.oldest b ≤ s.oldest b) : KTr w cap (tr ++ cstamp hb n [.invoke a op]) s' := by
  have hni : ∀ b, b ≠ a → ∀ e ∈ cstamp hb n [(.invoke a op : Event V)], ∀ op, e.1 ≠ .core (.invoke b op) := by
    intro b hba e he op hx
    simp only [cstamp, List.map_cons, List.map_nil, RA.stamp, List.mem_singleton] at he
    rw [he] at hx
    cases hx
    exact hba rfl
  refine ⟨fun b => ?_, fun k b r he => ?_⟩
  · by_cases hba : b = a
    · subst hba
      rw [hpa]
      cases op <;> trivial
    · rw [hpc b hba]
      exact (hk.words b).append hi (hni b hba) (hold b hba)
  · rcases Nat.lt_or_ge k tr.length with hlt | hge
    · rw [List.take_append_of_le_length (by omega)]
      exact hk.rets k b r (he.of_append hlt)
    · have he' := List.mem_of_getElem? (he.new hge)
      simp at he'

theorem kstep_load {a : OpId} {l : Loc} {m : Msg w} {od : MOrd} {k : State w V × List (Event V)} (hk : k.2 = [])
    (hw : KWord w cap tr (s.load a l m od.acq) a (k.1.pc a)) :
    KStep w cap tr s a (s.doLoad a l m od k).1 k.2 := by
  refine ⟨by rw [hk]; simp, fun b hb => emit_pc_ne _ _ _ hb, fun b hb => Nat.le_of_eq (upd_ne _ _ hb), ?_,
    by rw [hk]; simp⟩
  rw [show (s.doLoad a l m od k).1.pc a = k.1.pc a from emit_pc_self ..]
  generalize k.1.pc a = pc at hw
  cases pc <;> exact hw

/-- A step to a place where nothing need be known. -/
theorem kstep_triv {a : OpId} {evs : List (Event V)} {pc : PC w} (hop : ∀ e ∈ evs, opOf e = a ∧ ∀ b op, e ≠ .invoke b op)
    (hpc : s'.pc = upd s.pc a pc) (hold : ∀ b, b ≠ a → s'.oldest b = s.oldest b)
    (ht : ∀ (s : RState w V), KWord w cap tr s a pc) (hr : ∀ r, Event.ret a r ∈ evs → RetK tr a r) : KStep w cap tr s a s' evs := by
  refine ⟨hop, fun b hb => by rw [hpc]; exact upd_ne _ _ hb, fun b hb => Nat.le_of_eq (hold b hb), ?_, hr⟩
  rw [hpc, upd_self]
  exact ht _

section
variable {a : OpId} {rd wr : Nat} {r : RState w V × List (REv V)}

/-- What a load of `head` finds. -/
theorem KInv.popWord (hk : KInv w cap tr s) (hi : RInv w cap tr s) (hb : HbInv tr s) {m : Msg w} {q : Bool} {b : Backoff}
    (hm : s.readMsg a .head rd = some m) : KWord w cap tr (s.load a .head m q) a (.popLoop b m.val) := by
  obtain ⟨h1, h2, h3⟩ := hi.mem.head m (readMsg_spec hm).1
  refine ⟨m.deqs, h1, h2, ?_, hk.readHead hi hb hm⟩
  show upd _ _ _ _ ≤ _
  rw [upd_self]
  exact Nat.le_trans (Nat.min_le_right _ _) h3

theorem kstep_run (hw : WellSized w cap) (hk : KInv w cap tr s) (hi : RInv w cap tr s) (hb : HbInv tr s)
    (hkt : KTr w cap tr s) (hs : s.run o cap a rd wr = some r) (ht' : Timely w cap (tr ++ r.2) r.1) :
    ∃ hb n evs, r.2 = cstamp hb n evs ∧ KStep w cap tr s a r.1 evs := by
  have hkw := hkt.words a
  have hpos := hw.1
  have hwd := hi.words a
  cases hpc : s.pc a with
  | pushStart =>
    obtain ⟨m, k, hm, hk', rfl⟩ := run_load (by rw [hpc]; rfl) hs
    simp only [runStep, pc_snap, hpc, Option.some.injEq] at hk'
    subst hk'
    refine ⟨_, _, _, rfl, kstep_load rfl ?_⟩
    rw [goto_pc_self, snap_tail]
    exact hk.readTail hi hb hm
  | pushReload b =>
    obtain ⟨m, k, hm, hk', rfl⟩ := run_load (by rw [hpc]; rfl) hs
    simp only [runStep, pc_snap, hpc, Option.some.injEq] at hk'
    subst hk'
    refine ⟨_, _, _, rfl, kstep_load rfl ?_⟩
    rw [goto_pc_self, snap_tail]
    exact hk.readTail hi hb hm
  | popStart =>
    obtain ⟨m, k, hm, hk', rfl⟩ := run_load (by rw [hpc]; rfl) hs
    simp only [runStep, pc_snap, hpc, Option.some.injEq] at hk'
    subst hk'
    refine ⟨_, _, _, rfl, kstep_load rfl ?_⟩
    rw [goto_pc_self, snap_head]
    exact hk.popWord hi hb hm
  | popReload b =>
    obtain ⟨m, k, hm, hk', rfl⟩ := run_load (by rw [hpc]; rfl) hs
    simp only [runStep, pc_snap, hpc, Option.some.injEq] at hk'
    subst hk'
    refine ⟨_, _, _, rfl, kstep_load rfl ?_⟩
    rw [goto_pc_self, snap_head]
    exact hk.popWord hi hb hm
  | lenStart =>
    obtain ⟨m, k, hm, hk', rfl⟩ := run_load (by rw [hpc]; rfl) hs
    simp only [runStep, pc_snap, hpc, Option.some.injEq] at hk'
    subst hk'
    refine ⟨_, _, _, rfl, kstep_load rfl ?_⟩
    rw [goto_pc_self]
    trivial
  | lenHead t =>
    obtain ⟨m, k, hm, hk', rfl⟩ := run_load (by rw [hpc]; rfl) hs
    simp only [runStep, pc_snap, hpc, Option.some.injEq] at hk'
    subst hk'
    refine ⟨_, _, _, rfl, kstep_load rfl ?_⟩
    rw [goto_pc_self]
    trivial
  | lenTail t h =>
    obtain ⟨m, k, hm, hk', rfl⟩ := run_load (by rw [hpc]; rfl) hs
    simp only [runStep, pc_snap, hpc] at hk'
    split at hk'
    · obtain rfl := Option.some.inj hk'
      refine ⟨_, _, _, rfl, kstep_triv (by simp [opOf]) rfl (fun b hb => upd_ne _ _ hb) ?_ (by simp [RetK])⟩
      intro s; rw [goto_pc_self]; trivial
    · obtain rfl := Option.some.inj hk'
      refine ⟨_, _, _, rfl, kstep_load rfl ?_⟩
      rw [goto_pc_self]
      trivial
  | pushLoop b t =>
    have hp : Pend (evsOf tr) a .push := by have := hi.base.inv.pcs a; rw [show s.core.pc a = _ from hpc] at this; exact this.1
    rw [hpc] at hwd hkw
    obtain ⟨q, c, rfl, hq, hol, hcl⟩ := hwd
    cases c with
    | true =>
      have hb := (closedBit_tailWord hw q true).2 rfl
      obtain ⟨k, hk', rfl⟩ := run_none (by simp only [hpc, Orders.acc]; rw [if_pos hb]) hs
      simp only [runStep, pc_snap, hpc, Option.some.injEq, pushLoop] at hk'
      rw [if_pos hb] at hk'
      subst hk'
      refine ⟨_, _, _, rfl, kstep_triv (by simp [opOf]) rfl (fun b hb => rfl) ?_ ?_⟩
      · intro s; rw [goto_pc_self]; trivial
      · intro r hr
        simp only [List.mem_singleton] at hr
        cases hr
        intro hm
        cases hp.uniq _ hm
    | false =>
      have hb : ¬ (tailWord w cap q false &&& (Params.new w cap).closed ≠ 0#w) :=
        fun hx => by simpa using (closedBit_tailWord hw q false).1 hx
      obtain ⟨m, k, hm, hk', rfl⟩ := run_load (l := .slot (q % cap)) (od := o.pushSlot) (by
        simp only [hpc, Orders.acc]
        rw [if_neg hb]
        simp only [tailWord_false, idx_enc hw, Nat.mod_lt _ hpos, if_true]) hs
      simp only [runStep, pc_snap, hpc, Option.some.injEq, pushLoop] at hk'
      rw [if_neg hb] at hk'
      simp only [tailWord_false, idx_enc hw, Nat.mod_lt _ hpos, not_true_eq_false, if_false,
        enc_succ_checked hw] at hk'
      have hncl : ¬ ClosedBefore tr a := by
        intro hc
        obtain ⟨p, hp⟩ := hkw hc
        cases (tailWord_inj hw hp).2
      split at hk'
      · subst hk'
        refine ⟨_, _, _, rfl, kstep_load rfl ?_⟩
        rw [goto_pc_self]
        trivial
      · split at hk'
        · subst hk'
          refine ⟨_, _, _, rfl, kstep_load rfl ?_⟩
          rw [goto_pc_self]
          exact hncl
        · subst hk'
          refine ⟨_, _, _, rfl, kstep_load rfl ?_⟩
          rw [goto_pc_self]
          trivial
  | pushCas b t =>
    rw [hpc] at hwd
    obtain ⟨q, rfl, -⟩ := hwd
    obtain ⟨m, k, hm, hk', hh⟩ := run_cas (by rw [hpc]; rfl) hs
    simp only [runStep, pc_snap, hpc, Option.some.injEq] at hk'
    unfold pushCas at hk'
    simp only [next_enc hw, idx_enc hw, snap_tail] at hk'
    rcases hh with ⟨hv, hf, rfl⟩ | ⟨hv, rfl⟩
    · rw [if_pos ⟨hv, trivial⟩] at hk'
      subst hk'
      refine ⟨_, _, _, rfl, kstep_triv (by simp [opOf]) rfl (fun b hb => upd_ne _ _ hb) ?_ (by simp)⟩
      intro s
      show KWord _ _ _ _ _ (upd _ _ _ _)
      rw [upd_self]; trivial
    · rw [if_neg (fun h => hv h.1)] at hk'
      subst hk'
      refine ⟨_, _, _, rfl, kstep_load rfl ?_⟩
      rw [goto_pc_self]
      exact hk.readTail hi hb hm
  | pushHead b t =>
    rw [hpc] at hkw
    obtain ⟨m, k, hm, hf, hk', rfl⟩ := run_rmw (by rw [hpc]; rfl) hs
    simp only [runStep, pc_snap, hpc, Option.some.injEq] at hk'
    unfold pushHead at hk'
    split at hk'
    · subst hk'
      refine ⟨_, _, _, rfl, kstep_triv (by simp [opOf]) rfl (fun b hb => upd_ne _ _ hb) ?_ ?_⟩
      · intro s; rw [goto_pc_self]; trivial
      · intro r hr
        simp only [List.mem_singleton] at hr
        cases hr
        exact hkw
    · subst hk'
      refine ⟨_, _, _, rfl, kstep_triv (by simp) rfl (fun b hb => upd_ne _ _ hb) ?_ (by simp)⟩
      intro s; rw [goto_pc_self]; trivial
  | popLoop b t =>
    have hp : Pend (evsOf tr) a .pop := by have := hi.base.inv.pcs a; rw [show s.core.pc a = _ from hpc] at this; exact this.1
    rw [hpc] at hkw
    obtain ⟨q, rfl, hq, hol, hpast⟩ := hkw
    obtain ⟨m, k, hm, hk', rfl⟩ := run_load (l := .slot (q % cap)) (od := o.popSlot) (by
      simp only [hpc, Orders.acc, idx_enc hw, Nat.mod_lt _ hpos, if_true]) hs
    simp only [runStep, pc_snap, hpc, Option.some.injEq, popLoop] at hk'
    simp only [idx_enc hw, Nat.mod_lt _ hpos, not_true_eq_false, if_false,
      enc_succ_checked hw] at hk'
    have hstv : (s.snap (some (.slot (q % cap))) m.val).st (q % cap) = m.val := if_pos rfl
    rw [hstv] at hk'
    split at hk'
    · subst hk'
      refine ⟨_, _, _, rfl, kstep_load rfl ?_⟩
      rw [goto_pc_self]
      trivial
    · split at hk'
      · rename_i hv
        subst hk'
        have ht2 := ht'.load hp rfl
        refine ⟨_, _, _, rfl, kstep_load rfl ?_⟩
        rw [goto_pc_self]
        exact ⟨q, rfl, hq, Nat.le_trans (oldest_load ..) hol, hpast, hk.readSlot hw hi hb hm hv hq hol ht2⟩
      · subst hk'
        refine ⟨_, _, _, rfl, kstep_load rfl ?_⟩
        rw [goto_pc_self]
        trivial
  | popCas b t =>
    rw [hpc] at hwd
    obtain ⟨q, rfl, -⟩ := hwd
    obtain ⟨m, k, hm, hk', hh⟩ := run_cas (by rw [hpc]; rfl) hs
    simp only [runStep, pc_snap, hpc, Option.some.injEq] at hk'
    unfold popCas at hk'
    simp only [next_enc hw, idx_enc hw, snap_head] at hk'
    rcases hh with ⟨hv, hf, rfl⟩ | ⟨hv, rfl⟩
    · rw [if_pos ⟨hv, trivial⟩] at hk'
      subst hk'
      refine ⟨_, _, _, rfl, kstep_triv (by simp [opOf]) rfl (fun b hb => upd_ne _ _ hb) ?_ (by simp [RetK])⟩
      intro s
      show KWord _ _ _ _ _ (upd _ _ _ _)
      rw [upd_self]; trivial
    · rw [if_neg (fun h => hv h.1)] at hk'
      subst hk'
      refine ⟨_, _, _, rfl, kstep_load rfl ?_⟩
      rw [goto_pc_self]
      exact hk.popWord hi hb hm
  | popTail b t =>
    rw [hpc] at hkw
    obtain ⟨q, rfl, hq, hol, hpast, hnr⟩ := hkw
    have hE : EmptyK tr a := ⟨q, hq, hpast, hnr⟩
    obtain ⟨m, k, hm, hf, hk', rfl⟩ := run_rmw (by rw [hpc]; rfl) hs
    simp only [runStep, pc_snap, hpc, Option.some.injEq] at hk'
    obtain ⟨hmm, -⟩ := readMsg_spec hm
    obtain ⟨hlast, -⟩ := hi.mem.rmw_last (.inr rfl) hmm hf
    have htl : m.val = tailWord w cap (nRes (evsOf tr)) (closedB (evsOf tr)) := ((last_of_getLast? hlast).symm : m.val = s.core.tail).trans hi.base.inv.tail
    have hle := hi.base.inv.le
    unfold popTail at hk'
    simp only [snap_tail, htl, tailWord_and_not_closed hw] at hk'
    split at hk'
    · split at hk'
      · subst hk'
        refine ⟨_, _, _, rfl, kstep_triv (by simp [opOf]) rfl (fun b hb => upd_ne _ _ hb) ?_ ?_⟩
        · intro s; rw [goto_pc_self]; trivial
        · intro r hr
          simp only [List.mem_singleton] at hr
          cases hr
          exact fun _ => hE
      · rename_i hcl
        subst hk'
        refine ⟨_, _, _, rfl, kstep_triv (by simp [opOf]) rfl (fun b hb => upd_ne _ _ hb) ?_ ?_⟩
        · intro s; rw [goto_pc_self]; trivial
        · intro r hr
          simp only [List.mem_singleton] at hr
          cases hr
          refine ⟨q, hq, hpast, hnr, fun ⟨n, b, i, op, _, h2, _⟩ => absurd ((closedBit_tailWord hw _ _).2 ?_) hcl⟩
          exact closedB_iff.2 ⟨b, h2.mem⟩
    · rename_i hne
      split at hk'
      · subst hk'
        refine ⟨_, _, _, rfl, kstep_triv (by simp [opOf]) rfl (fun b hb => upd_ne _ _ hb) ?_ ?_⟩
        · intro s; rw [goto_pc_self]; trivial
        · intro r hr
          simp only [List.mem_singleton] at hr
          cases hr
          refine ⟨q, hq, hpast, hnr, fun _ => ?_⟩
          rcases Nat.lt_or_ge q (nRes (evsOf tr)) with h | h
          · exact h
          · exact absurd (congrArg (enc w cap) (by omega)) hne
      · subst hk'
        refine ⟨_, _, _, rfl, kstep_triv (by simp) rfl (fun b hb => upd_ne _ _ hb) ?_ (by simp)⟩
        intro s; rw [goto_pc_self]; trivial
  | closeStart p =>
    cases p with
    | true =>
      obtain ⟨k, hk', rfl⟩ := run_none (by rw [hpc]; rfl) hs
      simp only [runStep, pc_snap, hpc, Option.some.injEq, closeStep, if_true] at hk'
      subst hk'
      refine ⟨_, _, _, rfl, kstep_triv (by simp [opOf]) rfl (fun b hb => rfl) ?_ (by simp [RetK])⟩
      intro s; rw [goto_pc_self]; trivial
    | false =>
      obtain ⟨m, k, hm, hf, hk', rfl⟩ := run_rmw (by rw [hpc]; rfl) hs
      simp only [runStep, pc_snap, hpc, Option.some.injEq, closeStep] at hk'
      subst hk'
      refine ⟨_, _, _, rfl, kstep_triv (by simp [opOf]) rfl (fun b hb => upd_ne _ _ hb) ?_ (by simp [RetK])⟩
      intro s
      show KWord _ _ _ _ _ (upd _ _ _ _)
      rw [upd_self]; trivial
  | _ =>
    obtain ⟨k, hk', -⟩ := run_none (by rw [hpc]; rfl) hs
    simp only [runStep, pc_snap, hpc] at hk'
    cases hk'

end

theorem KTr.pres {act : RAct V} {r : RState w V × List (REv V)} (hw : WellSized w cap) (hkt : KTr w cap tr s)
    (hk : KInv w cap tr s) (hi : RInv w cap tr s) (hb : HbInv tr s)
    (hs : rstep o cap s act = some r) (ht' : Timely w cap (tr ++ r.2) r.1) : KTr w cap (tr ++ r.2) r.1 := by
  cases act with
  | invoke a op =>
    simp only [rstep, step] at hs
    obtain ⟨k, hk, rfl⟩ := Option.map_eq_some_iff.1 hs
    split at hk
    · rename_i hidle
      obtain rfl := Option.some.inj hk
      refine hkt.invoke hb hi hidle (fun b hb => emit_pc_ne _ _ _ hb) ?_ (fun b hb => Nat.le_of_eq (upd_ne _ _ hb))
      rw [emit_pc_self, goto_pc_self]
    · cases hk
  | run a rd wr =>
    obtain ⟨h1, n, evs, h2, h3⟩ := kstep_run hw hk hi hb hkt hs ht'
    rw [h2]
    exact hkt.next hb h3
  | spurious a rd =>
    simp only [rstep] at hs
    split at hs
    · rename_i l e ok fail hacc
      split at hs
      · cases hs
      · rename_i m hm
        obtain ⟨k, hk', rfl⟩ := Option.map_eq_some_iff.1 hs
        have hwd := hi.words a
        simp only [step] at hk'
        split at hk'
        · rename_i b t hpc0
          have hpc : s.pc a = _ := hpc0
          obtain rfl := Option.some.inj hk'
          rw [hpc] at hacc hwd
          cases hacc
          obtain ⟨q, rfl, -⟩ := hwd
          refine hkt.next hb (kstep_load ?_ ?_)
          · unfold pushCas
            simp only [next_enc hw]
            rw [if_neg (fun h => by cases h.2)]
          · unfold pushCas
            simp only [next_enc hw]
            rw [if_neg (fun h => by cases h.2), goto_pc_self, snap_tail]
            exact hk.readTail hi hb hm
        · rename_i b t hpc0
          have hpc : s.pc a = _ := hpc0
          obtain rfl := Option.some.inj hk'
          rw [hpc] at hacc hwd
          cases hacc
          obtain ⟨q, rfl, -⟩ := hwd
          refine hkt.next hb (kstep_load ?_ ?_)
          · unfold popCas
            simp only [next_enc hw]
            rw [if_neg (fun h => by cases h.2)]
          · unfold popCas
            simp only [next_enc hw]
            rw [if_neg (fun h => by cases h.2), goto_pc_self, snap_head]
            exact hk.popWord hi hb hm
        · cases hk'
    · cases hs
  | elem a v n =>
    simp only [rstep, step] at hs
    split at hs
    · cases hs
    · split at hs
      · cases hs
      · obtain ⟨k, hk', rfl⟩ := Option.map_eq_some_iff.1 hs
        split at hk'
        · obtain rfl := Option.some.inj hk'
          unfold pushElem
          simp only
          split
          · refine hkt.next hb (kstep_triv (by simp [opOf]) rfl (fun b hb => rfl) ?_ (by simp [RetK]))
            intro s; rw [goto_pc_self]; trivial
          · refine hkt.next hb (kstep_triv (by simp [opOf]) rfl (fun b hb => rfl) ?_ (by simp [RetK]))
            intro s; rw [goto_pc_self]; trivial
        · cases hk'
  | elemPanic a v n =>
    simp only [rstep, step] at hs
    split at hs
    · cases hs
    · split at hs
      · cases hs
      · obtain ⟨k, hk', rfl⟩ := Option.map_eq_some_iff.1 hs
        have key : ∀ s1 : RState w V, s1.pc = s.pc → s1.oldest = s.oldest →
            KTr w cap (tr ++ (s1.emit a (k.1.pc a) k.2).2) (s1.emit a (k.1.pc a) k.2).1 := by
          intro s1 e1 e2
          split at hk'
          · obtain rfl := Option.some.inj hk'
            unfold pushElemPanic
            simp only
            split
            · refine hkt.next hb (kstep_triv (by simp [opOf]) (congrArg (fun f => upd f a _) e1)
                (fun b hb => congrFun e2 b) ?_ (by simp [RetK]))
              intro s; rw [goto_pc_self]; trivial
            · refine hkt.next hb (kstep_triv (by simp [opOf]) (congrArg (fun f => upd f a _) e1)
                (fun b hb => congrFun e2 b) ?_ (by simp [RetK]))
              intro s; rw [goto_pc_self]; trivial
          · cases hk'
        exact key _ (by split <;> rfl) (by split <;> rfl)
  | read a n =>
    simp only [rstep, step] at hs
    split at hs
    · cases hs
    · split at hs
      · cases hs
      · obtain ⟨k, hk', rfl⟩ := Option.map_eq_some_iff.1 hs
        split at hk'
        all_goals first | cases hk'; done | skip
        all_goals
          rename_i hpc
          obtain rfl := Option.some.inj hk'
          refine hkt.next hb (kstep_triv (by simp [opOf]) rfl (fun b hb => rfl) ?_ (by simp))
          intro s
          simp only
          rw [hpc]
          trivial
  | write a v =>
    simp only [rstep, step] at hs
    split at hs
    · cases hs
    · obtain ⟨k, hk', rfl⟩ := Option.map_eq_some_iff.1 hs
      split at hk'
      all_goals first | cases hk'; done | skip
      all_goals
        rename_i hpc
        obtain rfl := Option.some.inj hk'
        refine hkt.next hb (kstep_triv (by simp [opOf]) rfl (fun b hb => rfl) ?_ (by simp))
        intro s
        simp only
        rw [hpc]
        trivial
  | dropRef a wr =>
    simp only [rstep, step] at hs
    split at hs
    · cases hs
    · split at hs
      · obtain ⟨k, hk', rfl⟩ := Option.map_eq_some_iff.1 hs
        split at hk'
        all_goals first | cases hk'; done | skip
        all_goals
          obtain rfl := Option.some.inj hk'
          refine hkt.next hb (kstep_triv (by simp [opOf]) rfl (fun b hb => rfl) ?_ (by simp))
          intro s
          show KWord _ _ _ _ _ (upd _ _ _ _)
          rw [upd_self]; trivial
      · cases hs
  | sync a b =>
    simp only [rstep, Option.some.injEq] at hs
    subst hs
    rw [List.append_nil]
    refine ⟨fun c => ?_, hkt.rets⟩
    have := hkt.words c
    show KWord w cap tr _ c (s.pc c)
    generalize s.pc c = pc at this
    cases pc <;> exact this

theorem RExec.know (hw : WellSized w cap) (ho : Synchronised o) (h : RExec o w cap tr s) :
    KInv w cap tr s ∧ KTr w cap tr s := by
  induction h with
  | init => exact ⟨KInv.init, fun _ => trivial, fun n a r h => by simp [AtX] at h⟩
  | step h1 h2 h3 ih =>
    have hi := h1.inv hw ho
    exact ⟨ih.1.pres hw hi (rstep_shape h2) (hi.pres hw ho h1.timely h2 h3), ih.2.pres hw ih.1 hi h1.hbInv h2 h3⟩

/-! ### The results of the calls -/

theorem AtX.take {p q : Nat} {e : XEv V} (h : AtX tr p e) (hlt : p < q) : AtX (tr.take q) p e := by
  show ((tr.take q).map Prod.fst)[p]? = _
  rw [List.map_take, List.getElem?_take, if_pos hlt]
  exact h

theorem HB.take {p q n : Nat} (h : HB tr p q) (hlt : q < n) : HB (tr.take n) p q := by
  obtain ⟨e, h1, h2⟩ := h
  exact ⟨e, by rw [List.getElem?_take, if_pos hlt]; exact h1, h2⟩

/-- A call precedes its return. -/
theorem invoke_lt_ret (hf : Facts False w cap (evsOf tr)) {i p : Nat} {a : OpId} {op : Op} {r : Ret}
    (hi : At tr i (.invoke a op)) (hr : At tr p (.ret a r)) : i < p := by
  rcases Nat.lt_trichotomy i p with h | h | h
  · exact h
  · subst h
    unfold At AtX at hi hr
    rw [hi] at hr
    cases hr
  · exact absurd ⟨r, hr.mem_take h⟩ (hf.evOk hi.split).2.1

/-- The `q`-th dequeue. -/
theorem nth_dequeue {t : List (REv V)} {q : Nat} (h : q < nDeq (evsOf t)) :
    ∃ n b i x, At t n (.dequeue b i x) ∧ nDeq (evsOf (t.take n)) = q := by
  obtain ⟨t1, t2, rfl, h1, h2⟩ : ∃ t1 t2, t = t1 ++ t2 ∧ nDeq (evsOf t1) = q ∧
      ∃ b i x hb rest, t2 = (.core (.dequeue b i x), hb) :: rest := by
    induction t generalizing q with
    | nil => simp [evsOf] at h
    | cons e t ih =>
      by_cases hd : ∃ b i x, e.1 = .core (.dequeue b i x)
      · obtain ⟨b, i, x, hd⟩ := hd
        have e0 : evsOf (e :: t) = .dequeue b i x :: evsOf t := by
          simp [evsOf, List.filterMap_cons, hd, XEv.core?]
        cases q with
        | zero => exact ⟨[], e :: t, rfl, rfl, b, i, x, e.2, t, by rw [← hd]⟩
        | succ q =>
          have : q < nDeq (evsOf t) := by
            rw [e0] at h
            simpa [nDeq, deqOps] using h
          obtain ⟨t1, t2, rfl, h1, h2⟩ := ih this
          refine ⟨e :: t1, t2, rfl, ?_, h2⟩
          have e1 : evsOf (e :: t1) = .dequeue b i x :: evsOf t1 := by
            simp [evsOf, List.filterMap_cons, hd, XEv.core?]
          rw [e1, ← h1]
          simp [nDeq, deqOps]
      · have e0 : ∀ t : List (REv V), nDeq (evsOf (e :: t)) = nDeq (evsOf t) := by
          intro t
          cases hx : e.1 with
          | cell y => simp [evsOf, List.filterMap_cons, hx, XEv.core?]
          | core y =>
            have : evsOf (e :: t) = y :: evsOf t := by simp [evsOf, List.filterMap_cons, hx, XEv.core?]
            rw [this]
            cases y <;> first | rfl | exact absurd ⟨_, _, _, hx⟩ hd
        rw [e0] at h
        obtain ⟨t1, t2, rfl, h1, h2⟩ := ih h
        exact ⟨e :: t1, t2, rfl, (e0 t1).trans h1, h2⟩
  obtain ⟨b, i, x, hb, rest, rfl⟩ := h2
  refine ⟨t1.length, b, i, x, ?_, ?_⟩
  · simp [AtX]
  · rw [List.take_left]; exact h1

/-- A pop that finds nothing. -/
theorem empty_known (hf : Facts False w cap (evsOf tr)) (hk : KTr w cap tr s) (hb : HbInv tr s)
    {a : OpId} {i p : Nat} {r : Ret} (hi : At tr i (.invoke a .pop)) (hr : At tr p (.ret a r))
    (he : r = .empty ∨ r = .closed) :
    ∃ q, q ≤ nDeq (evsOf (tr.take p)) ∧
      (∀ n b j x, HB tr n i → At tr n (.dequeue b j x) → nDeq (evsOf (tr.take n)) < q) ∧
      (∀ n b j x, HB tr n i → At tr n (.commit b j x) → (resOps (evsOf tr))[q]? ≠ some b) := by
  have hlt := invoke_lt_ret hf hi hr
  have hE : EmptyK (tr.take p) a := by
    have := hk.rets p a r hr
    rcases he with rfl | rfl
    · exact OpenK.empty this
    · exact this (hi.mem_take hlt)
  obtain ⟨q, h1, h2, h3⟩ := hE
  have hlt' : ∀ n, HB tr n i → n < p := by
    rintro n ⟨e, h4, h5⟩
    have := (hb.ord i e h4 n h5).1
    omega
  refine ⟨q, h1, ?_, ?_⟩
  · intro n b j x hn hd
    have hnp := hlt' n hn
    have := h2 n b j x ⟨i, _, hi.take hlt, hn.take hlt⟩ (hd.take hnp)
    rwa [List.take_take, Nat.min_eq_left (by omega)] at this
  · intro n b j x hn hc hq
    have hnp := hlt' n hn
    obtain ⟨k, h4, h5⟩ := h3 n b j x ⟨i, _, hi.take hlt, hn.take hlt⟩ (hc.take hnp)
    have h6 : (resOps (evsOf tr))[k]? = some b := by
      conv => lhs; rw [← List.take_append_drop p tr]
      rw [evsOf_append, resOps_append]
      exact getElem?_append_of_some h4
    exact h5 ((List.getElem?_inj (lt_of_getElem?_some h6) hf.fifo_once.1).1 (h6.trans hq.symm))

/-- Where a consumer stands that knows of all dequeues, and has not dequeued anything itself. -/
theorem stands_at (hb : HbInv tr s) {a : OpId} {i p q : Nat} (hlt : i < p)
    (hd : ∀ n b' j' x', n < p → At tr n (.dequeue b' j' x') → b' ≠ a → HB tr n i)
    (hnd : a ∉ deqOps (evsOf (tr.take p))) (h1 : q ≤ nDeq (evsOf (tr.take p)))
    (h2 : ∀ n b j x, HB tr n i → At tr n (.dequeue b j x) → nDeq (evsOf (tr.take n)) < q) :
    nDeq (evsOf (tr.take i)) = nDeq (evsOf (tr.take p)) ∧ q = nDeq (evsOf (tr.take p)) := by
  -- the `k`-th dequeue before the return happened before the call
  have hB : ∀ k, k < nDeq (evsOf (tr.take p)) → ∃ n b' j' x', At tr n (.dequeue b' j' x') ∧ HB tr n i ∧ n < i ∧
      nDeq (evsOf (tr.take n)) = k := by
    intro k h
    obtain ⟨n, b', j', x', h4, h5⟩ := nth_dequeue h
    have hnp : n < p := by
      have := At.lt h4
      rw [List.length_take] at this
      omega
    have h6 : At tr n (.dequeue b' j' x') := by
      have h4' : ((tr.take p).map Prod.fst)[n]? = _ := h4
      rw [List.map_take, List.getElem?_take, if_pos hnp] at h4'
      exact h4'
    rw [List.take_take, Nat.min_eq_left (by omega)] at h5
    have h7 : HB tr n i := hd n b' j' x' hnp h6 (by
      rintro rfl
      exact hnd (List.mem_filterMap.2 ⟨_, h6.mem_take hnp, rfl⟩))
    obtain ⟨e, h8, h9⟩ := id h7
    exact ⟨n, b', j', x', h6, h7, (hb.ord i e h8 n h9).1, h5⟩
  have hle : nDeq (evsOf (tr.take i)) ≤ nDeq (evsOf (tr.take p)) := by
    rw [show tr.take i = (tr.take p).take i by rw [List.take_take, Nat.min_eq_left (by omega)]]
    conv => rhs; rw [← List.take_append_drop i (tr.take p)]
    rw [evsOf_append, nDeq_append]
    omega
  have heq : nDeq (evsOf (tr.take i)) = nDeq (evsOf (tr.take p)) := by
    rcases Nat.eq_or_lt_of_le hle with h | h
    · exact h
    · obtain ⟨n, b', j', x', h4, -, h5, h6⟩ := hB _ h
      have h7 : nDeq (evsOf (tr.take i)) =
          nDeq (evsOf (tr.take n)) + nDeq (evsOf ((tr.take i).drop n)) := by
        conv => lhs; rw [← List.take_append_drop n (tr.take i), List.take_take, Nat.min_eq_left (by omega)]
        rw [evsOf_append, nDeq_append]
      have h8 : 0 < nDeq (evsOf ((tr.take i).drop n)) := by
        have hm : ((tr.take i).drop n).head? = tr[n]? := by
          rw [List.head?_drop, List.getElem?_take, if_pos h5]
        simp only [AtX, List.getElem?_map] at h4
        obtain ⟨e, he1, he2⟩ := Option.map_eq_some_iff.1 h4
        rw [he1] at hm
        obtain ⟨t, ht⟩ := List.head?_eq_some_iff.1 hm
        rw [ht]
        simp [evsOf, he2, XEv.core?, nDeq, deqOps]
      omega
  refine ⟨heq, ?_⟩
  rcases Nat.eq_or_lt_of_le h1 with h | h
  · exact h
  · obtain ⟨n, b', j', x', h4, h5, -, h6⟩ := hB _ h
    have h7 := h2 n b' j' x' h5 h4
    omega

/-- A consumer that knows of all dequeues finds the oldest element, if its push was finished before. -/
theorem popped_known (hf : Facts False w cap (evsOf tr)) (hk : KTr w cap tr s) (hb : HbInv tr s)
    {a b : OpId} {i p c j : Nat} {x : Option V} {r : Ret} (hi : At tr i (.invoke a .pop)) (hr : At tr p (.ret a r))
    (hd : ∀ n b' j' x', n < p → At tr n (.dequeue b' j' x') → b' ≠ a → HB tr n i)
    (hq : (resOps (evsOf tr))[nDeq (evsOf (tr.take i))]? = some b)
    (hc : At tr c (.commit b j x)) (hci : HB tr c i) : r = .popped := by
  have hlt := invoke_lt_ret hf hi hr
  have hev := hf.evOk hr.split
  have huniq : ∀ op, Event.invoke a op ∈ evsOf (tr.take p) → op = .pop := by
    intro op hm
    obtain ⟨k, hkp, hk⟩ := RA.mem_take hm
    exact hf.invoke_unique hk.mem hi.mem
  have hno : r = .empty ∨ r = .closed → False := by
    intro he
    have hnd : a ∉ deqOps (evsOf (tr.take p)) := by
      rcases he with rfl | rfl
      · exact hev.2.2.2.1
      · exact hev.2.2.2.1
    obtain ⟨q, h1, h2, h3⟩ := empty_known hf hk hb hi hr he
    obtain ⟨heq, h⟩ := stands_at hb hlt hd hnd h1 h2
    rw [heq, ← h] at hq
    exact h3 c b j x hci hc hq
  cases r with
  | popped => rfl
  | closed => exact (hno (.inr rfl)).elim
  | empty => exact (hno (.inl rfl)).elim
  | full => cases huniq _ hev.2.2.2.2.1
  | pushed => cases huniq _ hev.2.2.2
  | panicked => cases huniq _ hev.2.2.2
  | len n => cases huniq _ hev.2.2.2.2.1
  | closeRet b =>
    rcases hev.2.2 with h | h
    · cases huniq _ h.1
    · cases huniq _ h.1
  | crash c => exact hev.2.2.2.2.elim

/-- A consumer that knows of all dequeues does not say `Empty` if the queue has been closed and nothing is left. -/
theorem closed_if_drained (hf : Facts False w cap (evsOf tr)) (hk : KTr w cap tr s) (hb : HbInv tr s)
    {a b : OpId} {i p c : Nat} (hi : At tr i (.invoke a .pop)) (hr : At tr p (.ret a .empty))
    (hd : ∀ n b' j' x', n < p → At tr n (.dequeue b' j' x') → b' ≠ a → HB tr n i)
    (hc : At tr c (.close b)) (hci : c < i) : nDeq (evsOf (tr.take i)) < nRes (evsOf (tr.take p)) := by
  have hlt := invoke_lt_ret hf hi hr
  have hev := hf.evOk hr.split
  obtain ⟨q, h1, h2, -, h4⟩ := hk.rets p a _ hr
  obtain ⟨h5, h6⟩ := stands_at hb hlt hd hev.2.2.2.1 h1 (by
    intro n b j x hn hd
    have hnp : n < p := by
      obtain ⟨e, h4, h5⟩ := id hn
      have := (hb.ord i e h4 n h5).1
      omega
    have := h2 n b j x ⟨i, _, hi.take hlt, hn.take hlt⟩ (hd.take hnp)
    rwa [List.take_take, Nat.min_eq_left (by omega)] at this)
  have := h4 ⟨c, b, i, _, hci, hc.take (by omega), hi.take hlt⟩
  omega

/-- A push called after the queue was closed. -/
theorem push_after_close (hf : Facts False w cap (evsOf tr)) (hk : KTr w cap tr s) (hb : HbInv tr s)
    {a b : OpId} {i p c : Nat} {r : Ret} (hi : At tr i (.invoke a .push)) (hr : At tr p (.ret a r))
    (hc : At tr c (.close b)) (hci : HB tr c i) : r = .closed := by
  have hlt := invoke_lt_ret hf hi hr
  have hcp : c < i := by
    obtain ⟨e, h4, h5⟩ := hci
    exact (hb.ord i e h4 c h5).1
  have hev := hf.evOk hr.split
  have huniq : ∀ op, Event.invoke a op ∈ evsOf (tr.take p) → op = .push := by
    intro op hm
    obtain ⟨k, hkp, hk⟩ := RA.mem_take hm
    rcases Nat.lt_trichotomy k i with h | h | h
    · exact absurd ⟨op, hk.mem_take h⟩ (hf.evOk hi.split).1
    · subst h
      unfold At AtX at hi hk
      rw [hi] at hk
      cases hk
      rfl
    · exact absurd ⟨_, hi.mem_take h⟩ (hf.evOk hk.split).1
  have hnres : a ∉ resOps (evsOf (tr.take p)) := by
    intro hm
    obtain ⟨e, he, h2⟩ := List.mem_filterMap.1 hm
    cases e <;> simp only [Option.some.injEq, reduceCtorEq] at h2
    subst h2
    obtain ⟨k, hkp, hk⟩ := RA.mem_take he
    obtain ⟨h3, h4, -⟩ := hf.evOk hk.split
    rcases Nat.lt_trichotomy k i with h | h | h
    · obtain ⟨k', hk1, hk2⟩ := RA.mem_take h3.inv
      exact absurd ⟨_, hk2.mem_take (Nat.lt_trans hk1 h)⟩ (hf.evOk hi.split).1
    · subst h
      unfold At AtX at hi hk
      rw [hi] at hk
      cases hk
    · exact h4 ⟨b, hc.mem_take (by omega)⟩
  cases r with
  | closed => rfl
  | full =>
    exfalso
    exact hk.rets p a _ hr ⟨c, b, ⟨i, _, hi.take hlt, hci.take hlt⟩, hc.take (by omega)⟩
  | pushed => exact absurd hev.2.2.1 hnres
  | panicked => exact absurd hev.2.2.1 hnres
  | popped => cases huniq _ hev.2.2.2
  | empty => cases huniq _ hev.2.2.2.2.1
  | len n => cases huniq _ hev.2.2.2.2.1
  | closeRet b =>
    rcases hev.2.2 with h | h
    · cases huniq _ h.1
    · cases huniq _ h.1
  | crash c => exact hev.2.2.2.2.elim

end Thingbuf.RA
