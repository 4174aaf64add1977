import Verif.RelAcqExec
import Verif.RelAcqHb
/-
What an operation knows: if a push was finished, an element was dequeued or the queue was closed
before, in the sense of "happens before", then the operation cannot read a message older than the
one written then.  This holds for all memory orderings.
-/
namespace Thingbuf.RA

variable {w cap : Nat} {V : Type} {o : Orders} {tr : List (REv V)} {s s' : RState w V}

/-! ### Positions -/

theorem At.split {q : Nat} {e : Event V} (h : At tr q e) :
    evsOf tr = evsOf (tr.take q) ++ e :: evsOf (tr.drop (q + 1)) := by
  simp only [AtX, List.getElem?_map] at h
  obtain ⟨x, hx, he⟩ := Option.map_eq_some_iff.1 h
  have hl := lt_of_getElem?_some hx
  conv => lhs; rw [← List.take_append_drop q tr]
  rw [evsOf_append, List.drop_eq_getElem_cons hl]
  rw [List.getElem?_eq_getElem hl] at hx
  rw [Option.some.inj hx]
  simp [evsOf, he, XEv.core?]

theorem At.mem {q : Nat} {e : Event V} (h : At tr q e) : e ∈ evsOf tr := by
  rw [h.split]; simp

theorem At.lt {q : Nat} {e : XEv V} (h : AtX tr q e) : q < tr.length := by
  have := lt_of_getElem?_some h
  rwa [List.length_map] at this

/-- The events of a prefix. -/
theorem mem_take {q : Nat} {e : Event V} (h : e ∈ evsOf (tr.take q)) : ∃ p, p < q ∧ At tr p e := by
  obtain ⟨x, hx, he⟩ := List.mem_filterMap.1 h
  obtain ⟨p, hp⟩ := List.mem_iff_getElem?.1 hx
  rw [List.getElem?_take] at hp
  split at hp
  · refine ⟨p, by assumption, ?_⟩
    show (tr.map Prod.fst)[p]? = _
    rw [List.getElem?_map, hp]
    obtain ⟨x, l⟩ := x
    cases x with
    | core e' => cases he; rfl
    | cell e' => cases he
  · cases hp

theorem At.mem_take {p q : Nat} {e : Event V} (h : At tr p e) (hlt : p < q) : e ∈ evsOf (tr.take q) := by
  refine At.mem (q := p) ?_
  show ((tr.take q).map Prod.fst)[p]? = _
  rw [List.map_take, List.getElem?_take, if_pos hlt]
  exact h

/-! ### Knowledge -/

/-- What the event at position `n` tells those who know the messages `ts`. -/
structure Fact (cap : Nat) (tr : List (REv V)) (s : RState w V) (ts : Loc → Nat) (n : Nat) : Prop where
  commit : ∀ b i x, At tr n (.commit b i x) → ∃ k m, (resOps (evsOf tr))[k]? = some b ∧
    (s.mem (.slot (k % cap)))[2 * (k / cap) + 1]? = some m ∧ m.ts ≤ ts (.slot (k % cap))
  dequeue : ∀ b i x, At tr n (.dequeue b i x) → ∃ m, m ∈ s.mem .head ∧
    nDeq (evsOf (tr.take n)) < m.deqs ∧ m.ts ≤ ts .head
  close : ∀ b, At tr n (.close b) → ∃ m p, m ∈ s.mem .tail ∧ m.val = tailWord w cap p true ∧ m.ts ≤ ts .tail
  reserve : ∀ b i, At tr n (.reserve b i) → ∃ m, m ∈ s.mem .tail ∧
    nRes (evsOf (tr.take n)) < m.born ∧ m.ts ≤ ts .tail

/-- Those who know `v` know what the events in `v` tell. -/
def Know (cap : Nat) (tr : List (REv V)) (s : RState w V) (v : View) : Prop :=
  ∀ n ∈ v.hb, n < tr.length ∧ Fact cap tr s v.ts n

theorem AtX.append {n : Nat} {e : XEv V} {t : List (REv V)} (h : AtX tr n e) : AtX (tr ++ t) n e := by
  unfold AtX at h ⊢
  rw [List.map_append]
  exact getElem?_append_of_some h

theorem AtX.of_append {n : Nat} {e : XEv V} {t : List (REv V)} (h : AtX (tr ++ t) n e) (hn : n < tr.length) :
    AtX tr n e := by
  unfold AtX at h ⊢
  rw [List.map_append, List.getElem?_append_left (by rw [List.length_map]; exact hn)] at h
  exact h

theorem Fact.mono {ts ts' : Loc → Nat} {n : Nat} {t : List (REv V)} (h : Fact cap tr s ts n)
    (hn : n < tr.length) (hx : ∀ l (k : Nat) m, (s.mem l)[k]? = some m → (s'.mem l)[k]? = some m)
    (hts : ∀ l, ts l ≤ ts' l) : Fact cap (tr ++ t) s' ts' n := by
  have hmem : ∀ l m, m ∈ s.mem l → m ∈ s'.mem l := by
    intro l m hm
    obtain ⟨k, hk⟩ := getElem?_of_mem' hm
    exact List.mem_of_getElem? (hx l k m hk)
  refine ⟨?_, ?_, ?_, ?_⟩
  · intro b i x he
    obtain ⟨k, m, h1, h2, h3⟩ := h.commit b i x (he.of_append hn)
    refine ⟨k, m, ?_, hx _ _ _ h2, Nat.le_trans h3 (hts _)⟩
    rw [evsOf_append, resOps_append]
    exact getElem?_append_of_some h1
  · intro b i x he
    obtain ⟨m, h1, h2, h3⟩ := h.dequeue b i x (he.of_append hn)
    refine ⟨m, hmem _ _ h1, ?_, Nat.le_trans h3 (hts _)⟩
    rw [List.take_append_of_le_length (by omega)]
    exact h2
  · intro b he
    obtain ⟨m, p, h1, h2, h3⟩ := h.close b (he.of_append hn)
    exact ⟨m, p, hmem _ _ h1, h2, Nat.le_trans h3 (hts _)⟩
  · intro b i he
    obtain ⟨m, h1, h2, h3⟩ := h.reserve b i (he.of_append hn)
    refine ⟨m, hmem _ _ h1, ?_, Nat.le_trans h3 (hts _)⟩
    rw [List.take_append_of_le_length (by omega)]
    exact h2

theorem Know.mono {v v' : View} {t : List (REv V)} (h : Know cap tr s v)
    (hx : ∀ l (k : Nat) m, (s.mem l)[k]? = some m → (s'.mem l)[k]? = some m)
    (hts : ∀ l, v.ts l ≤ v'.ts l) (hhb : ∀ n ∈ v'.hb, n ∈ v.hb) : Know cap (tr ++ t) s' v' := by
  intro n hn
  obtain ⟨h1, h2⟩ := h n (hhb n hn)
  exact ⟨by rw [List.length_append]; omega, h2.mono h1 hx hts⟩

theorem Know.le {v v' : View} (h : Know cap tr s v)
    (hts : ∀ l, v.ts l ≤ v'.ts l) (hhb : ∀ n ∈ v'.hb, n ∈ v.hb) : Know cap tr s v' := by
  have := h.mono (t := []) (s' := s) (fun _ _ _ h => h) hts hhb
  rwa [List.append_nil] at this

theorem Know.bot : Know cap tr s .bot := by intro n hn; simp [View.bot] at hn

theorem Know.see {v : View} (h : Know cap tr s v) (l : Loc) (t : Nat) : Know cap tr s (v.see l t) :=
  h.le (View.le_see v l t).1 (fun _ h => h)

theorem Know.join {v u : View} (h : Know cap tr s v) (h' : Know cap tr s u) : Know cap tr s (v.join u) := by
  intro n hn
  rcases List.mem_append.1 hn with hn | hn
  · exact (h.le (v' := ⟨(v.join u).ts, v.hb⟩) (View.le_join_left v u).1 (fun _ h => h)) n hn
  · exact (h'.le (v' := ⟨(v.join u).ts, u.hb⟩) (View.le_join_right v u).1 (fun _ h => h)) n hn

/-- The view of a message is knowledge. -/
theorem Know.load {a : OpId} {l : Loc} {m : Msg w} {acq : Bool} (h : Know cap tr s (s.view a))
    (h' : Know cap tr s m.view) : Know cap tr s ((s.load a l m acq).view a) := by
  simp only [RState.load, upd_self]
  split
  · exact (h.see _ _).join h'
  · exact h.see _ _

/-- All views are knowledge. -/
structure KView (cap : Nat) (tr : List (REv V)) (s : RState w V) : Prop where
  views : ∀ a, Know cap tr s (s.view a)
  msgs : ∀ l m, m ∈ s.mem l → Know cap tr s m.view

theorem Know.congr {v : View} (h : Know cap tr s v) (hm : s'.mem = s.mem) : Know cap tr s' v := by
  have := h.mono (t := []) (s' := s') (by rw [hm]; exact fun _ _ _ h => h) (fun _ => Nat.le_refl _) (fun _ h => h)
  rwa [List.append_nil] at this

theorem KView.congr (h : KView cap tr s) (hm : s'.mem = s.mem) (hv : s'.view = s.view) : KView cap tr s' :=
  ⟨fun a => by rw [hv]; exact (h.views a).congr hm, fun l m h1 => (h.msgs l m (hm ▸ h1)).congr hm⟩

theorem KView.load {a : OpId} {l : Loc} {m : Msg w} {acq : Bool} (h : KView cap tr s) (hm : m ∈ s.mem l) :
    KView cap tr (s.load a l m acq) := by
  refine ⟨fun b => ?_, fun k m' h2 => (h.msgs k m' h2).congr rfl⟩
  by_cases hb : b = a
  · subst hb
    exact (Know.load (h.views b) (h.msgs l m hm)).congr rfl
  · show Know cap tr _ (upd s.view a _ b)
    rw [upd_ne _ _ hb]
    exact (h.views b).congr rfl

/-- The event at a new position. -/
theorem At.new {hb : List Nat} {k n : Nat} {evs : List (Event V)} {e : Event V}
    (h : At (tr ++ cstamp hb k evs) n e) (hn : tr.length ≤ n) : evs[n - tr.length]? = some e := by
  simp only [AtX, List.map_append] at h
  rw [List.getElem?_append_right (by simpa using hn), List.length_map, cstamp, stamp_map, List.getElem?_map] at h
  obtain ⟨x, h2, h3⟩ := Option.map_eq_some_iff.1 h
  cases h3
  exact h2

/-- Operation `a` has the events `evs`, of which everything is told by the message `t` of `l`. -/
theorem KView.write {a : OpId} {pc : PC w} {evs : List (Event V)} {l : Loc} {f t : Nat} {v : BitVec w} {rel : Bool}
    {base : View} (h : KView cap tr s) (hnow : s.now = tr.length)
    (hbase : Know cap tr s base)
    (hnew : ∀ n ts, tr.length ≤ n → t ≤ ts l →
      Fact cap (tr ++ (s.emit a pc evs).2) ((s.emit a pc evs).1.put a l f t v rel base) ts n) :
    KView cap (tr ++ (s.emit a pc evs).2) ((s.emit a pc evs).1.put a l f t v rel base) := by
  have hx : ∀ k (j : Nat) m, (s.mem k)[j]? = some m →
      (((s.emit a pc evs).1.put a l f t v rel base).mem k)[j]? = some m :=
    ((Ext.emit s a pc evs).trans (Ext.put ..)).mem
  have hlen : (tr ++ (s.emit a pc evs).2).length = tr.length + evs.length := by
    rw [List.length_append]; congr 1; exact stamp_length ..
  -- the views that know the new events
  have key : ∀ u : View, t ≤ u.ts l → (∀ k, (s.view a).ts k ≤ u.ts k) →
      (∀ n ∈ u.hb, n ∈ List.range' s.now evs.length ++ (s.view a).hb) →
      Know cap (tr ++ (s.emit a pc evs).2) ((s.emit a pc evs).1.put a l f t v rel base) u := by
    intro u h1 h2 h3 n hn
    rcases List.mem_append.1 (h3 n hn) with hn | hn
    · have := List.mem_range'_1.1 hn
      rw [hnow] at this
      exact ⟨by omega, hnew n _ this.1 h1⟩
    · exact ((h.views a).mono (v' := ⟨u.ts, (s.view a).hb⟩) hx h2 (fun _ h => h)) n hn
  refine ⟨fun b => ?_, fun k m hm => ?_⟩
  · by_cases hb : b = a
    · subst hb
      have e : (((s.emit b pc evs).1.put b l f t v rel base).view b) = ((s.emit b pc evs).1.view b).see l t :=
        upd_self ..
      have e2 : (s.emit b pc evs).1.view b = ⟨(s.view b).ts, (List.range' s.now evs.length) ++ (s.view b).hb⟩ :=
        upd_self ..
      rw [e, e2]
      exact key _ (View.ts_see ..) (View.le_see ⟨(s.view b).ts, _⟩ l t).1 (fun _ h => h)
    · have e : (((s.emit a pc evs).1.put a l f t v rel base).view b) = s.view b :=
        (upd_ne _ _ hb).trans (upd_ne _ _ hb)
      rw [e]
      exact (h.views b).mono hx (fun _ => Nat.le_refl _) (fun _ h => h)
  · have hm : m ∈ (if k = l then s.mem k ++ [_] else s.mem k) := hm
    have hold : m ∈ s.mem k → Know cap (tr ++ (s.emit a pc evs).2)
        ((s.emit a pc evs).1.put a l f t v rel base) m.view :=
      fun hm => (h.msgs k m hm).mono hx (fun _ => Nat.le_refl _) (fun _ h => h)
    split at hm
    · rcases List.mem_append.1 hm with hm | hm
      · exact hold hm
      · rw [List.mem_singleton.1 hm]
        refine Know.join ?_ (hbase.mono hx (fun _ => Nat.le_refl _) (fun _ h => h))
        split
        · have e2 : (s.emit a pc evs).1.view a = ⟨(s.view a).ts, (List.range' s.now evs.length) ++ (s.view a).hb⟩ :=
            upd_self ..
          rw [e2]
          exact key _ (View.ts_see ..) (View.le_see ⟨(s.view a).ts, _⟩ l t).1 (fun _ h => h)
        · exact Know.see Know.bot _ _
    · exact hold hm

/-- None of the events that knowledge is about. -/
def Plain : XEv V → Prop
  | .core (.commit ..) | .core (.dequeue ..) | .core (.close _) | .core (.reserve ..) => False
  | _ => True

/-- Operation `a` has events that nobody need know about. -/
theorem KView.stamp {a : OpId} {evs : List (XEv V)} (h : KView cap tr s) (hnow : s.now = tr.length)
    (hp : ∀ e ∈ evs, Plain e) (hm : s'.mem = s.mem)
    (hv : s'.view = upd s.view a ⟨(s.view a).ts, (List.range' s.now evs.length) ++ (s.view a).hb⟩) :
    KView cap (tr ++ RA.stamp (s.view a).hb s.now evs) s' := by
  have hx : ∀ l (k : Nat) m, (s.mem l)[k]? = some m → (s'.mem l)[k]? = some m := by rw [hm]; exact fun _ _ _ h => h
  have hlen : (tr ++ RA.stamp (s.view a).hb s.now evs).length = tr.length + evs.length := by
    rw [List.length_append, stamp_len]
  refine ⟨fun b => ?_, fun l m h1 => ?_⟩
  · rw [hv]
    by_cases hb : b = a
    · subst hb
      rw [upd_self]
      intro n hn
      rcases List.mem_append.1 hn with hn | hn
      · have hr := List.mem_range'_1.1 hn
        rw [hnow] at hr
        have hnew : ∀ e, AtX (tr ++ RA.stamp (s.view b).hb s.now evs) n e → Plain e := by
          intro e he
          simp only [AtX, List.map_append] at he
          rw [List.getElem?_append_right (by simpa using hr.1), List.length_map, stamp_map] at he
          exact hp _ (List.mem_of_getElem? he)
        exact ⟨by omega, fun _ _ _ he => (hnew _ he).elim, fun _ _ _ he => (hnew _ he).elim, fun _ he => (hnew _ he).elim,
          fun _ _ he => (hnew _ he).elim⟩
      · exact ((h.views b).mono (v' := ⟨(s.view b).ts, (s.view b).hb⟩) hx (fun _ => Nat.le_refl _) (fun _ h => h)) n hn
    · rw [upd_ne _ _ hb]
      exact (h.views b).mono hx (fun _ => Nat.le_refl _) (fun _ h => h)
  · rw [hm] at h1
    exact (h.msgs l m h1).mono hx (fun _ => Nat.le_refl _) (fun _ h => h)

theorem KView.emit {a : OpId} {pc : PC w} {evs : List (Event V)} (h : KView cap tr s) (hnow : s.now = tr.length)
    (hp : ∀ e ∈ evs, Plain (.core e)) : KView cap (tr ++ (s.emit a pc evs).2) (s.emit a pc evs).1 := by
  refine h.stamp (evs := evs.map .core) hnow ?_ rfl ?_
  · intro e he
    obtain ⟨x, hx, rfl⟩ := List.mem_map.1 he
    exact hp x hx
  · rw [List.length_map]; rfl

/-! ### The shapes of the steps -/

/-- What a step does to memory and views. -/
inductive Shape (o : Orders) (s : RState w V) : RState w V × List (REv V) → Prop where
  | emit (a : OpId) (pc : PC w) (evs : List (Event V)) (s1 : RState w V) (hm : s1.mem = s.mem)
      (hv : s1.view = s.view) (hn : s1.now = s.now) (hp : ∀ e ∈ evs, Plain (.core e)) : Shape o s (s1.emit a pc evs)
  | load (a : OpId) (l : Loc) (rd : Nat) (m : Msg w) (od : MOrd) (k : State w V × List (Event V))
      (hm : s.readMsg a l rd = some m) (hp : ∀ e ∈ k.2, Plain (.core e)) : Shape o s (s.doLoad a l m od k)
  | rmw (a : OpId) (l : Loc) (rd wr : Nat) (m : Msg w) (od : MOrd) (k : State w V × List (Event V))
      (hl : l = .head ∨ l = .tail)
      (hm : s.readMsg a l rd = some m) (hf : s.fits l m.ts wr = true)
      (hc : ∀ b i x, Event.commit b i x ∉ k.2) (hd : (∃ b i x, Event.dequeue b i x ∈ k.2) → l = .head)
      (hcl : (∃ b, Event.close b ∈ k.2) → l = .tail) (hr : (∃ b i, Event.reserve b i ∈ k.2) → l = .tail)
      (hdo : (∃ b i x, Event.dequeue b i x ∈ k.2) → od = o.popCasOk)
      (hro : (∃ b i, Event.reserve b i ∈ k.2) → od = o.pushCasOk) : Shape o s (s.doRmw a l m od wr k)
  | commit (a : OpId) (i wr : Nat) (ns : BitVec w) (rel : Bool) (hpc : s.pc a = .pushHeld i ns)
      (ht : (s.view a).ts (.slot i) < wr) :
      Shape o s (RA.drop s a i wr ns rel (.commit a i (s.core.val i)))
  | release (a : OpId) (i wr : Nat) (ns : BitVec w) (rel : Bool) (hpc : s.pc a = .popHeld i ns)
      (ht : (s.view a).ts (.slot i) < wr) :
      Shape o s (RA.drop s a i wr ns rel (.release a i (s.core.val i)))
  | sync (a b : OpId) : Shape o s ({ s with view := upd s.view b ((s.view b).join (s.view a)) }, [])

theorem run_plain {c : Params w} {σ : State w V} {a : OpId} {k : State w V × List (Event V)}
    (h : runStep c cap σ a = some k) :
    (∀ b i x, Event.commit b i x ∉ k.2) ∧
    ((∃ b i x, Event.dequeue b i x ∈ k.2) → ∃ b h, σ.pc a = .popCas b h ∧ σ.head = h) ∧
    ((∃ b, Event.close b ∈ k.2) → σ.pc a = .closeStart false) ∧
    ((∃ b i, Event.reserve b i ∈ k.2) → ∃ b t, σ.pc a = .pushCas b t ∧ σ.tail = t) := by
  unfold runStep at h
  split at h
  case h_15 => cases h
  all_goals rename_i hpc
  all_goals first | obtain rfl := Option.some.inj h | skip
  case h_2 => unfold pushLoop; repeat' (first | split | simp)
  case h_3 =>
    unfold pushCas
    simp only
    repeat' split
    all_goals first
      | (rename_i hh; exact ⟨by simp, by simp, by simp, fun _ => ⟨_, _, hpc, hh.1⟩⟩)
      | simp
  case h_4 => unfold pushHead; repeat' (first | split | simp)
  case h_7 => unfold popLoop; repeat' (first | split | simp)
  case h_8 =>
    unfold popCas
    simp only
    split
    · simp
    · split
      · rename_i hh
        refine ⟨by simp, fun _ => ⟨_, _, hpc, hh.1⟩, by simp, by simp⟩
      · simp
  case h_9 => unfold popTail; repeat' (first | split | simp)
  case h_13 =>
    split at h
    · obtain rfl := Option.some.inj h; simp
    · obtain rfl := Option.some.inj h; simp
  case h_14 =>
    unfold closeStep
    split
    · simp
    · rename_i hh
      refine ⟨by simp, by simp, fun _ => ?_, by simp⟩
      rw [hpc]
      simpa using hh
  all_goals simp

theorem plain_of {evs : List (Event V)} (h1 : ∀ b i x, Event.commit b i x ∉ evs)
    (h2 : ¬ ∃ b i x, Event.dequeue b i x ∈ evs) (h3 : ¬ ∃ b, Event.close b ∈ evs)
    (h4 : ¬ ∃ b i, Event.reserve b i ∈ evs) : ∀ e ∈ evs, Plain (.core e) := by
  intro e he
  cases e with
  | commit b i x => exact h1 b i x he
  | dequeue b i x => exact h2 ⟨b, i, x, he⟩
  | close b => exact h3 ⟨b, he⟩
  | reserve b i => exact h4 ⟨b, i, he⟩
  | _ => trivial

theorem rstep_shape {act : RAct V} {r : RState w V × List (REv V)} (h : rstep o cap s act = some r) :
    Shape o s r := by
  cases act with
  | invoke a op =>
    simp only [rstep, step] at h
    obtain ⟨k, hk, rfl⟩ := Option.map_eq_some_iff.1 h
    split at hk
    · obtain rfl := Option.some.inj hk
      exact .emit a _ _ { s with oldest := upd s.oldest a s.res } rfl rfl rfl (by simp [Plain])
    · cases hk
  | run a rd wr =>
    simp only [rstep] at h
    cases hacc : o.acc (Params.new w cap) cap (s.pc a) with
    | none =>
      obtain ⟨k, hk, rfl⟩ := run_none hacc h
      obtain ⟨h1, h2, h3, h4⟩ := run_plain hk
      refine .emit a _ _ s rfl rfl rfl (plain_of h1 (fun hd => ?_) (fun hd => ?_) (fun hd => ?_))
      · obtain ⟨b, x, hp, -⟩ := h2 hd
        rw [pc_snap] at hp; rw [hp] at hacc; cases hacc
      · have hp := h3 hd
        rw [pc_snap] at hp; rw [hp] at hacc; cases hacc
      · obtain ⟨b, x, hp, -⟩ := h4 hd
        rw [pc_snap] at hp; rw [hp] at hacc; cases hacc
    | load l od =>
      obtain ⟨m, k, hm, hk, rfl⟩ := run_load hacc h
      obtain ⟨h1, h2, h3, h4⟩ := run_plain hk
      refine .load a l rd m od k hm (plain_of h1 (fun hd => ?_) (fun hd => ?_) (fun hd => ?_))
      · obtain ⟨b, x, hp, -⟩ := h2 hd
        rw [pc_snap] at hp; rw [hp] at hacc; cases hacc
      · have hp := h3 hd
        rw [pc_snap] at hp; rw [hp] at hacc; cases hacc
      · obtain ⟨b, x, hp, -⟩ := h4 hd
        rw [pc_snap] at hp; rw [hp] at hacc; cases hacc
    | rmw l od =>
      obtain ⟨m, k, hm, hf, hk, rfl⟩ := run_rmw hacc h
      obtain ⟨h1, h2, h3, h4⟩ := run_plain hk
      have hl : l = .head ∨ l = .tail := by
        cases hpc : s.pc a <;> rw [hpc] at hacc <;> simp only [Orders.acc] at hacc <;>
          first
          | cases hacc; done
          | (cases hacc; first | exact .inl rfl | exact .inr rfl)
          | (repeat' (split at hacc)) <;> first
            | cases hacc; done
            | (cases hacc; first | exact .inl rfl | exact .inr rfl)
      refine .rmw a l rd wr m od k hl hm hf h1 (fun hd => ?_) (fun hd => ?_) (fun hd => ?_) (fun hd => ?_) (fun hd => ?_)
      · obtain ⟨b, x, hp, -⟩ := h2 hd
        rw [pc_snap] at hp; rw [hp] at hacc; cases hacc
      · have hp := h3 hd
        rw [pc_snap] at hp; rw [hp] at hacc; cases hacc; rfl
      · obtain ⟨b, x, hp, -⟩ := h4 hd
        rw [pc_snap] at hp; rw [hp] at hacc; cases hacc
      · obtain ⟨b, x, hp, -⟩ := h2 hd
        rw [pc_snap] at hp; rw [hp] at hacc; cases hacc
      · obtain ⟨b, x, hp, -⟩ := h4 hd
        rw [pc_snap] at hp; rw [hp] at hacc; cases hacc
    | cas l e ok fail =>
      obtain ⟨m, k, hm, hk, hh⟩ := run_cas hacc h
      obtain ⟨h1, h2, h3, h4⟩ := run_plain hk
      have hl : (l = .head ∧ ∃ b, s.pc a = .popCas b e) ∨ (l = .tail ∧ ∃ b, s.pc a = .pushCas b e) := by
        cases hpc : s.pc a <;> rw [hpc] at hacc <;> simp only [Orders.acc] at hacc
        case pushCas b t => cases hacc; exact .inr ⟨rfl, _, rfl⟩
        case popCas b t => cases hacc; exact .inl ⟨rfl, _, rfl⟩
        all_goals first
          | cases hacc; done
          | (repeat' (split at hacc)) <;> cases hacc
      have hncl : ¬ ∃ b, Event.close b ∈ k.2 := by
        intro hd
        have hp := h3 hd
        rw [pc_snap] at hp; rw [hp] at hacc; cases hacc
      rcases hh with ⟨hv, hf, rfl⟩ | ⟨hv, rfl⟩
      · refine .rmw a l rd wr m ok k ?_ hm hf h1 (fun hd => ?_) (fun hd => (hncl hd).elim) (fun hd => ?_) (fun hd => ?_) (fun hd => ?_)
        · rcases hl with h | h
          · exact .inl h.1
          · exact .inr h.1
        · obtain ⟨b, x, hp, -⟩ := h2 hd
          rw [pc_snap] at hp; rw [hp] at hacc; cases hacc; rfl
        · obtain ⟨b, x, hp, -⟩ := h4 hd
          rw [pc_snap] at hp; rw [hp] at hacc; cases hacc; rfl
        · obtain ⟨b, x, hp, -⟩ := h2 hd
          rw [pc_snap] at hp; rw [hp] at hacc; cases hacc; rfl
        · obtain ⟨b, x, hp, -⟩ := h4 hd
          rw [pc_snap] at hp; rw [hp] at hacc; cases hacc; rfl
      · refine .load a l rd m fail k hm (plain_of h1 (fun hd => ?_) hncl (fun hd => ?_))
        · obtain ⟨b, x, hp, hx⟩ := h2 hd
          rw [pc_snap] at hp
          rw [hp] at hacc
          cases hacc
          rw [snap_head] at hx
          exact hv hx
        · obtain ⟨b, x, hp, hx⟩ := h4 hd
          rw [pc_snap] at hp
          rw [hp] at hacc
          cases hacc
          rw [snap_tail] at hx
          exact hv hx
  | spurious a rd =>
    simp only [rstep] at h
    split at h
    · rename_i l e ok fail hacc
      split at h
      · cases h
      · rename_i m hm
        obtain ⟨k, hk, rfl⟩ := Option.map_eq_some_iff.1 h
        refine .load a l rd m fail k hm ?_
        simp only [step] at hk
        split at hk
        · obtain rfl := Option.some.inj hk
          unfold pushCas
          simp only
          split <;> simp [Plain]
        · obtain rfl := Option.some.inj hk
          unfold popCas
          simp only
          split <;> simp [Plain]
        · cases hk
    · cases h
  | elem a v n =>
    simp only [rstep, step] at h
    split at h
    · cases h
    · rename_i i _
      split at h
      · cases h
      · obtain ⟨k, hk, rfl⟩ := Option.map_eq_some_iff.1 h
        refine .emit a _ _ (s.putVal i v) rfl rfl rfl ?_
        split at hk
        · obtain rfl := Option.some.inj hk
          unfold pushElem
          simp only
          split <;> simp [Plain]
        · cases hk
  | elemPanic a v n =>
    simp only [rstep, step] at h
    split at h
    · cases h
    · rename_i i _
      split at h
      · cases h
      · obtain ⟨k, hk, rfl⟩ := Option.map_eq_some_iff.1 h
        refine .emit a _ _ (if fresh (Params.new w cap) (s.pc a) then s else s.putVal i v) ?_ ?_ ?_ ?_
        · split <;> rfl
        · split <;> rfl
        · split <;> rfl
        · split at hk
          · obtain rfl := Option.some.inj hk
            unfold pushElemPanic
            simp only
            split <;> simp [Plain]
          · cases hk
  | read a n =>
    simp only [rstep, step] at h
    split at h
    · cases h
    · split at h
      · cases h
      · obtain ⟨k, hk, rfl⟩ := Option.map_eq_some_iff.1 h
        refine .emit a _ _ s rfl rfl rfl ?_
        split at hk
        · obtain rfl := Option.some.inj hk; simp [Plain]
        · obtain rfl := Option.some.inj hk; simp [Plain]
        · cases hk
  | write a v =>
    simp only [rstep, step] at h
    split at h
    · cases h
    · rename_i i _
      obtain ⟨k, hk, rfl⟩ := Option.map_eq_some_iff.1 h
      refine .emit a _ _ (s.putVal i v) rfl rfl rfl ?_
      split at hk
      · obtain rfl := Option.some.inj hk; simp [Plain]
      · obtain rfl := Option.some.inj hk; simp [Plain]
      · cases hk
  | dropRef a wr =>
    simp only [rstep] at h
    split at h
    · cases h
    · rename_i i hel
      split at h
      · rename_i hc
        obtain ⟨hts, -⟩ := hc
        obtain ⟨k, hk, rfl⟩ := Option.map_eq_some_iff.1 h
        simp only [step] at hk
        split at hk
        · rename_i j ns hpc0
          have hpc : s.pc a = _ := hpc0
          have hel' := hel
          rw [hpc] at hel'
          simp only [elemOf, Option.some.injEq] at hel'
          subst hel'
          obtain rfl := Option.some.inj hk
          have := Shape.commit (o := o) a j wr ns o.dropRef.rel hpc hts
          unfold RA.drop at this
          have hdone : ((s.snap none 0#w).goto a PC.done).pc a = .done := goto_pc_self ..
          have hcell : cell ({ (s.snap none 0#w).goto a PC.done with
            st := upd (s.snap none 0#w).st j ns } : State w V) (.slot j) = ns := upd_self ..
          simp only [hcell]
          rw [show ({ (s.snap none 0#w).goto a PC.done with
            st := upd (s.snap none 0#w).st j ns } : State w V).pc a = .done from hdone]
          exact this
        · rename_i j ns hpc0
          have hpc : s.pc a = _ := hpc0
          have hel' := hel
          rw [hpc] at hel'
          simp only [elemOf, Option.some.injEq] at hel'
          subst hel'
          obtain rfl := Option.some.inj hk
          have := Shape.release (o := o) a j wr ns o.dropRef.rel hpc hts
          unfold RA.drop at this
          have hdone : ((s.snap none 0#w).goto a PC.done).pc a = .done := goto_pc_self ..
          have hcell : cell ({ (s.snap none 0#w).goto a PC.done with
            st := upd (s.snap none 0#w).st j ns } : State w V) (.slot j) = ns := upd_self ..
          simp only [hcell]
          rw [show ({ (s.snap none 0#w).goto a PC.done with
            st := upd (s.snap none 0#w).st j ns } : State w V).pc a = .done from hdone]
          exact this
        · cases hk
      · cases h
  | sync a b =>
    simp only [rstep, Option.some.injEq] at h
    subst h
    exact .sync a b

end Thingbuf.RA
