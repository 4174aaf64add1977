import Verif.RelAcqSpec
import Verif.CoreEvents
/-
The inductive invariant of the release/acquire machine.
-/
namespace Thingbuf.RA

variable {w cap : Nat} {V : Type}

/-- `u` knows everything that `v` knows. -/
def View.le (v u : View) : Prop := (∀ l, v.ts l ≤ u.ts l) ∧ ∀ n ∈ v.hb, n ∈ u.hb

theorem View.le_refl (v : View) : v.le v := ⟨fun _ => Nat.le_refl _, fun _ h => h⟩

theorem View.le.trans {u v x : View} (h : u.le v) (h' : v.le x) : u.le x :=
  ⟨fun l => Nat.le_trans (h.1 l) (h'.1 l), fun n hn => h'.2 n (h.2 n hn)⟩

theorem View.le_join_left (v u : View) : v.le (v.join u) :=
  ⟨fun _ => Nat.le_max_left _ _, fun _ h => List.mem_append_left _ h⟩

theorem View.le_join_right (v u : View) : u.le (v.join u) :=
  ⟨fun _ => Nat.le_max_right _ _, fun _ h => List.mem_append_right _ h⟩

theorem View.le_see (v : View) (l : Loc) (t : Nat) : v.le (v.see l t) :=
  ⟨fun k => by unfold View.see; simp only; split <;> omega, fun _ h => h⟩

theorem View.ts_see (v : View) (l : Loc) (t : Nat) : t ≤ (v.see l t).ts l := by
  simp only [View.see, if_true]; omega

/-- The sequentially consistent view of the state: the newest value of every location. -/
def RState.core (s : RState w V) : State w V where
  head := s.last .head
  tail := s.last .tail
  st := fun i => s.last (.slot i)
  val := s.latest
  pc := s.pc

/-- Something happens to slot `i` at position `n` of the trace. -/
def AccAt (tr : List (REv V)) (n i : Nat) : Prop :=
  ∃ e, tr[n]? = some e ∧ e.1.touched = some i

/-- The messages in memory. -/
structure Mem (w cap : Nat) (T : Trace V) (s : RState w V) : Prop where
  sorted : ∀ l (j k : Nat) (m m' : Msg w), j < k → (s.mem l)[j]? = some m → (s.mem l)[k]? = some m' → m.ts < m'.ts
  chain : ∀ l, l = .head ∨ l = .tail → ∀ (k : Nat) (m m' : Msg w), (s.mem l)[k]? = some m →
    (s.mem l)[k + 1]? = some m' → m'.frm = m.ts
  viewTs : ∀ l m, m ∈ s.mem l → m.ts ≤ m.view.ts l
  tail : ∀ m, m ∈ s.mem .tail → ∃ c, m.val = tailWord w cap m.born c ∧ m.born ≤ nRes T ∧
    (c = true → closedB T = true)
  head : ∀ m, m ∈ s.mem .head → m.val = enc w cap m.deqs ∧ m.deqs ≤ nDeq T ∧ m.born ≤ m.deqs + cap
  even : ∀ i, i < cap → ∀ (j : Nat) m, (s.mem (.slot i))[2 * j]? = some m →
    m.val = enc w cap (i + j * cap) ∧ m.born ≤ i + j * cap ∧ i + j * cap ≤ m.born + cap ∧ m.born ≤ nRes T
  odd : ∀ i, i < cap → ∀ (j : Nat) m, (s.mem (.slot i))[2 * j + 1]? = some m →
    m.val = enc w cap (i + j * cap) + 1#w ∧ i + j * cap < m.born ∧ m.born ≤ i + j * cap + cap ∧
    m.born ≤ nRes T

/-- Operation `a` has acquired the `k`-th message of slot `i`. -/
def Has (s : RState w V) (a : OpId) (i k : Nat) : Prop :=
  ∃ m, (s.mem (.slot i))[k]? = some m ∧ m.view.le (s.view a)

/-- The words that an operation carries around. -/
def WordOk (w cap : Nat) (T : Trace V) (s : RState w V) (a : OpId) : PC w → Prop
  | .pushLoop _ t => ∃ q c, t = tailWord w cap q c ∧ q ≤ nRes T ∧ s.oldest a ≤ q ∧
      (c = true → closedB T = true)
  | .pushCas _ t => ∃ q, t = enc w cap q ∧ q ≤ nRes T ∧ s.oldest a ≤ q ∧ Has s a (q % cap) (2 * (q / cap))
  | .pushHead _ t => ∃ q, t = enc w cap q ∧ q ≤ nRes T ∧ s.oldest a ≤ q
  | .popLoop _ h => ∃ q, h = enc w cap q ∧ q ≤ nDeq T ∧ s.oldest a ≤ q + cap
  | .popCas _ h => ∃ q, h = enc w cap q ∧ q ≤ nDeq T ∧ s.oldest a ≤ q + cap ∧
      Has s a (q % cap) (2 * (q / cap) + 1)
  | .popTail _ h => ∃ q, h = enc w cap q ∧ q ≤ nDeq T ∧ s.oldest a ≤ q + cap
  | .lenHead t => ∃ q c, t = tailWord w cap q c
  | .lenTail t h => ∃ q c r, t = tailWord w cap q c ∧ h = enc w cap r
  | _ => True

/-- How many messages a slot has. -/
def SlotLen (w cap : Nat) (T : Trace V) (s : RState w V) : Prop :=
  ∀ p, nDeq T ≤ p → p < nDeq T + cap →
    (p < nRes T →
      (s.last (.slot (p % cap)) = enc w cap p ∧ (s.mem (.slot (p % cap))).length = 2 * (p / cap) + 1) ∨
      (s.last (.slot (p % cap)) = enc w cap p + 1#w ∧
        (s.mem (.slot (p % cap))).length = 2 * (p / cap) + 2)) ∧
    (nRes T ≤ p →
      (s.last (.slot (p % cap)) = enc w cap p ∧ (s.mem (.slot (p % cap))).length = 2 * (p / cap) + 1) ∨
      (cap ≤ p ∧ s.last (.slot (p % cap)) = enc w cap (p - cap) + 1#w ∧
        (s.mem (.slot (p % cap))).length = 2 * (p / cap)))

/-- The position `p` is published and not dequeued, or free. -/
def Idle (w cap : Nat) (T : Trace V) (s : RState w V) (p : Nat) : Prop :=
  nDeq T ≤ p ∧ p < nDeq T + cap ∧
    ((p < nRes T ∧ s.last (.slot (p % cap)) = enc w cap p + 1#w) ∨
     (nRes T ≤ p ∧ s.last (.slot (p % cap)) = enc w cap p))

/-- The last message of a slot that nobody owns knows all accesses to the element. -/
def HbFree (w cap : Nat) (tr : List (REv V)) (s : RState w V) : Prop :=
  ∀ p, Idle w cap (evsOf tr) s p → ∀ m, (s.mem (.slot (p % cap))).getLast? = some m →
    ∀ n, AccAt tr n (p % cap) → n ∈ m.view.hb

/-- The owner of a slot knows its last message and all accesses to the element. -/
def HbOwn (w cap : Nat) (tr : List (REv V)) (s : RState w V) : Prop :=
  ∀ a i, elemOf (Params.new w cap) (s.pc a) = some i →
    (∀ m, (s.mem (.slot i)).getLast? = some m → m.ts ≤ (s.view a).ts (.slot i)) ∧
    ∀ n, AccAt tr n i → n ∈ (s.view a).hb

/-- The facts about the sequentially consistent view. -/
structure Base (w cap : Nat) (T : Trace V) (s : State w V) : Prop where
  inv : Inv False w cap T s
  x : InvX w cap T s
  y : InvY T
  evs : AllFrom (EvOk False w cap) [] T
  val : ∀ i, s.val i ≠ none ↔ i ∈ createdSlots T

structure RInv (w cap : Nat) (tr : List (REv V)) (s : RState w V) : Prop where
  now : s.now = tr.length
  res : s.res = nRes (evsOf tr)
  deq : s.deq = nDeq (evsOf tr)
  base : Base w cap (evsOf tr) s.core
  mem : Mem w cap (evsOf tr) s
  words : ∀ a, WordOk w cap (evsOf tr) s a (s.pc a)
  len : SlotLen w cap (evsOf tr) s
  free : HbFree w cap tr s
  own : HbOwn w cap tr s
  cont : ∀ i e, e ∈ s.cont i → AccAt tr e.1 i
  race : ∀ p q i e, p < q → AccAt tr p i → tr[q]? = some e → e.1.touched = some i → p ∈ e.2

/-! ### Lists and traces -/

theorem snoc_some {α : Type} {l : List α} {x m : α} {k : Nat} (h : (l ++ [x])[k]? = some m) :
    l[k]? = some m ∨ (k = l.length ∧ m = x) := by
  rw [List.getElem?_append] at h
  split at h
  · exact .inl h
  · rename_i hk
    have : k - l.length = 0 := by
      cases hx : k - l.length with
      | zero => rfl
      | succ n => rw [hx] at h; simp at h
    rw [this] at h
    right
    exact ⟨by omega, by simpa using h.symm⟩

theorem getElem?_of_mem' {α : Type} {l : List α} {m : α} (h : m ∈ l) : ∃ k : Nat, l[k]? = some m :=
  List.mem_iff_getElem?.1 h

theorem evsOf_append (t u : List (REv V)) : evsOf (t ++ u) = evsOf t ++ evsOf u := List.filterMap_append

theorem stamp_map {α : Type} (hb : List Nat) (n : Nat) (evs : List α) : (stamp hb n evs).map Prod.fst = evs := by
  induction evs generalizing hb n with
  | nil => rfl
  | cons e evs ih => simp only [stamp, List.map_cons]; exact congrArg _ (ih _ _)

theorem evsOf_map (tr : List (REv V)) : evsOf tr = (tr.map Prod.fst).filterMap XEv.core? := by
  rw [List.filterMap_map]; rfl

theorem evsOf_stamp (hb : List Nat) (n : Nat) (evs : List (Event V)) : evsOf (cstamp hb n evs) = evs := by
  rw [evsOf_map, cstamp, stamp_map, List.filterMap_map]
  exact List.filterMap_some

theorem stamp_length (hb : List Nat) (n : Nat) (evs : List (Event V)) :
    (cstamp hb n evs).length = evs.length := by
  have := congrArg List.length (stamp_map hb n (evs.map XEv.core))
  simpa [cstamp] using this

theorem stamp_fst {hb : List Nat} {n k : Nat} {evs : List (Event V)} {e : REv V}
    (h : (cstamp hb n evs)[k]? = some e) : ∃ x, evs[k]? = some x ∧ e.1 = .core x := by
  have h1 : ((cstamp hb n evs).map Prod.fst)[k]? = some e.1 := by rw [List.getElem?_map, h]; rfl
  rw [cstamp, stamp_map, List.getElem?_map] at h1
  obtain ⟨x, h2, h3⟩ := Option.map_eq_some_iff.1 h1
  exact ⟨x, h2, h3.symm⟩

theorem AccAt.lt {tr : List (REv V)} {n i : Nat} (h : AccAt tr n i) : n < tr.length := by
  obtain ⟨e, h, -⟩ := h
  exact lt_of_getElem?_some h

theorem AccAt.mono {tr t : List (REv V)} {n i : Nat} (h : AccAt tr n i) : AccAt (tr ++ t) n i := by
  obtain ⟨e, h, he⟩ := h
  exact ⟨e, getElem?_append_of_some h, he⟩

/-- Nothing happens to any slot. -/
def NoAcc (evs : List (Event V)) : Prop := ∀ e ∈ evs, touched e = none

theorem AccAt.of_append {tr : List (REv V)} {hb : List Nat} {n k i : Nat} {evs : List (Event V)}
    (h : AccAt (tr ++ cstamp hb n evs) k i) : AccAt tr k i ∨
      (tr.length ≤ k ∧ ∃ e, evs[k - tr.length]? = some e ∧ touched e = some i) := by
  obtain ⟨e, h, he⟩ := h
  rw [List.getElem?_append] at h
  split at h
  · exact .inl ⟨e, h, he⟩
  · obtain ⟨x, hx, h3⟩ := stamp_fst h
    rw [h3] at he
    exact .inr ⟨by omega, x, hx, he⟩

theorem AccAt.of_noAcc {tr : List (REv V)} {hb : List Nat} {n k i : Nat} {evs : List (Event V)}
    (hn : NoAcc evs) (h : AccAt (tr ++ cstamp hb n evs) k i) : AccAt tr k i := by
  rcases h.of_append with h | ⟨-, e, h, he⟩
  · exact h
  · rw [hn e (List.mem_of_getElem? h)] at he
    cases he

theorem AccAt.of_first {tr : List (REv V)} {hb : List Nat} {n k i j : Nat} {e : Event V}
    {rest : List (Event V)} (ht : touched e = some i) (hn : NoAcc rest)
    (h : AccAt (tr ++ cstamp hb n (e :: rest)) k j) : AccAt tr k j ∨ (k = tr.length ∧ j = i) := by
  rcases h.of_append with h | ⟨h1, e', h, he⟩
  · exact .inl h
  · right
    rcases hk : k - tr.length with _ | x
    · rw [hk] at h
      obtain rfl := Option.some.inj h
      rw [ht] at he
      exact ⟨by omega, (Option.some.inj he).symm⟩
    · rw [hk] at h
      rw [hn e' (List.mem_of_getElem? h)] at he
      cases he

theorem AccAt.first {tr : List (REv V)} {hb : List Nat} {n i : Nat} {e : Event V}
    {rest : List (Event V)} (ht : touched e = some i) :
    AccAt (tr ++ cstamp hb n (e :: rest)) tr.length i :=
  ⟨_, by rw [List.getElem?_append_right (Nat.le_refl _), Nat.sub_self]; rfl, by exact ht⟩

theorem race_first {tr : List (REv V)} {hb : List Nat} {n i : Nat} {e : Event V} {rest : List (Event V)}
    (h : ∀ p q i e, p < q → AccAt tr p i → tr[q]? = some e → e.1.touched = some i → p ∈ e.2)
    (ht : touched e = some i) (hn : NoAcc rest) (hk : ∀ p, AccAt tr p i → p ∈ hb) :
    ∀ p q i e', p < q → AccAt (tr ++ cstamp hb n (e :: rest)) p i →
      (tr ++ cstamp hb n (e :: rest))[q]? = some e' → e'.1.touched = some i → p ∈ e'.2 := by
  intro p q j e' hpq hp hq he
  rw [List.getElem?_append] at hq
  split at hq
  · rename_i hlt
    rcases hp.of_first ht hn with hp | ⟨hp, -⟩
    · exact h p q j e' hpq hp hq he
    · omega
  · rename_i hge
    obtain ⟨x, hf, hxe⟩ := stamp_fst hq
    rcases hx : q - tr.length with _ | k
    · rw [hx] at hf hq
      obtain rfl := Option.some.inj hq
      simp only [XEv.touched] at he ⊢
      rcases hp.of_first ht hn with hp | ⟨hp, -⟩
      · rw [ht] at he
        obtain rfl := Option.some.inj he
        exact hk p hp
      · omega
    · rw [hx] at hf
      rw [hxe, XEv.touched, hn _ (List.mem_of_getElem? hf)] at he
      cases he

/-! ### Reading and writing messages -/

theorem readMsg_spec {s : RState w V} {a : OpId} {l : Loc} {t : Nat} {m : Msg w}
    (h : s.readMsg a l t = some m) : m ∈ s.mem l ∧ m.ts = t ∧ (s.view a).ts l ≤ t := by
  unfold RState.readMsg at h
  split at h
  · rename_i hle
    exact ⟨List.mem_of_find?_eq_some h, by simpa using List.find?_some h, hle⟩
  · cases h

theorem fits_spec {s : RState w V} {l : Loc} {f t : Nat} (h : s.fits l f t = true) :
    f < t ∧ ∀ m ∈ s.mem l, m.ts ≤ f ∨ t ≤ m.frm := by
  unfold RState.fits at h
  simp only [Bool.and_eq_true, decide_eq_true_eq, List.all_eq_true, Bool.or_eq_true] at h
  exact h

/-- A read-modify-write of `head` or `tail` reads the last message. -/
theorem Mem.rmw_last {T : Trace V} {s : RState w V} (hm : Mem w cap T s) {l : Loc}
    (hl : l = .head ∨ l = .tail) {m : Msg w} {wr : Nat} (h : m ∈ s.mem l) (hf : s.fits l m.ts wr = true) :
    (s.mem l).getLast? = some m ∧ m.ts < wr := by
  obtain ⟨h1, h2⟩ := fits_spec hf
  refine ⟨?_, h1⟩
  obtain ⟨k, hk⟩ := getElem?_of_mem' h
  have hlt := lt_of_getElem?_some hk
  rw [List.getLast?_eq_getElem?]
  by_cases he : k + 1 = (s.mem l).length
  · rw [← he]; exact hk
  · exfalso
    have hk1 : k + 1 < (s.mem l).length := by omega
    have hk' := List.getElem?_eq_getElem hk1
    have e := hm.chain l hl k _ _ hk hk'
    have e2 := hm.sorted l k (k + 1) _ _ (by omega) hk hk'
    rcases h2 _ (List.getElem_mem hk1) with h3 | h3
    · omega
    · omega

theorem last_of_getLast? {s : RState w V} {l : Loc} {m : Msg w} (h : (s.mem l).getLast? = some m) :
    s.last l = m.val := by
  unfold RState.last; rw [h]

/-! ### How the sequentially consistent view changes -/

theorem core_load (s : RState w V) (a : OpId) (l : Loc) (m : Msg w) (b : Bool) :
    (s.load a l m b).core = s.core := rfl

theorem core_emit (s : RState w V) (a : OpId) (pc : PC w) (evs : List (Event V)) :
    (s.emit a pc evs).1.core = s.core.goto a pc := rfl

theorem put_mem_self (s : RState w V) (a : OpId) (l : Loc) (f t : Nat) (v : BitVec w) (rel : Bool)
    (base : View) : ∃ m : Msg w, (s.put a l f t v rel base).mem l = s.mem l ++ [m] ∧ m.frm = f ∧ m.ts = t ∧
      m.val = v ∧ m.born = s.res ∧ m.deqs = s.deq ∧ t ≤ m.view.ts l ∧ (rel = true → (s.view a).le m.view) := by
  refine ⟨_, if_pos rfl, rfl, rfl, rfl, rfl, rfl, ?_, ?_⟩
  · refine Nat.le_trans ?_ ((View.le_join_left _ _).1 l)
    split <;> exact View.ts_see ..
  · rintro rfl
    exact (View.le_see _ _ _).trans (View.le_join_left _ _)

theorem put_mem_ne (s : RState w V) (a : OpId) {l k : Loc} (f t : Nat) (v : BitVec w) (rel : Bool)
    (base : View) (h : k ≠ l) : (s.put a l f t v rel base).mem k = s.mem k := if_neg h

theorem last_put_self (s : RState w V) (a : OpId) (l : Loc) (f t : Nat) (v : BitVec w) (rel : Bool)
    (base : View) : (s.put a l f t v rel base).last l = v := by
  obtain ⟨m, h, -, -, hv, -⟩ := put_mem_self s a l f t v rel base
  unfold RState.last
  rw [h]
  simp [hv]

theorem last_put_ne (s : RState w V) (a : OpId) {l k : Loc} (f t : Nat) (v : BitVec w) (rel : Bool)
    (base : View) (h : k ≠ l) : (s.put a l f t v rel base).last k = s.last k := by
  unfold RState.last
  rw [put_mem_ne s a f t v rel base h]

theorem core_put_tail (s : RState w V) (a : OpId) (f t : Nat) (v : BitVec w) (rel : Bool)
    (base : View) : (s.put a .tail f t v rel base).core = { s.core with tail := v } := by
  unfold RState.core
  rw [last_put_self, last_put_ne _ _ _ _ _ _ _ (by decide)]
  congr 1

theorem core_put_head (s : RState w V) (a : OpId) (f t : Nat) (v : BitVec w) (rel : Bool)
    (base : View) : (s.put a .head f t v rel base).core = { s.core with head := v } := by
  unfold RState.core
  rw [last_put_self, last_put_ne _ _ _ _ _ _ _ (by decide)]
  congr 1

theorem core_put_slot (s : RState w V) (a : OpId) (i : Nat) (f t : Nat) (v : BitVec w) (rel : Bool)
    (base : View) : (s.put a (.slot i) f t v rel base).core = { s.core with st := upd s.core.st i v } := by
  unfold RState.core
  rw [last_put_ne _ _ _ _ _ _ _ (by simp), last_put_ne _ _ _ _ _ _ _ (by simp)]
  congr 1
  funext j
  by_cases h : j = i
  · subst h; rw [last_put_self, upd_self]
  · rw [upd_ne _ _ h, last_put_ne _ _ _ _ _ _ _ (by simpa using h)]

theorem core_putVal (s : RState w V) (i : Nat) (v : V) :
    (s.putVal i v).core = { s.core with val := upd s.core.val i (some v) } := by
  unfold RState.core RState.putVal RState.latest RState.last
  congr 1
  funext j
  by_cases h : j = i
  · subst h; simp [upd_self]
  · simp only [upd_ne _ _ h]

theorem latest_snap (s : RState w V) (l : Option Loc) (v : BitVec w) : (s.snap l v).val = s.core.val := rfl
theorem pc_snap (s : RState w V) (l : Option Loc) (v : BitVec w) : (s.snap l v).pc = s.pc := rfl

end Thingbuf.RA
