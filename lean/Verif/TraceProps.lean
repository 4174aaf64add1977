import Verif.TraceFacts
/-
The trace-level properties of the ring buffer, proved once for both memory models.
-/
namespace Thingbuf

variable {w cap : Nat} {V : Type} {m : Prop} {tr : Trace V}

theorem length_le_of_nodup_lt {l : List Nat} {n : Nat} (hn : l.Nodup) (hl : ∀ x ∈ l, x < n) :
    l.length ≤ n := by
  induction n generalizing l with
  | zero =>
    cases l with
    | nil => simp
    | cons a l => exact absurd (hl a (by simp)) (by omega)
  | succ n ih =>
    have h1 := ih (l := l.erase n) (hn.erase n) (by
      intro x hx
      have h2 := hl x (List.mem_of_mem_erase hx)
      have h3 : x ≠ n := by
        rintro rfl
        exact (List.Nodup.mem_erase_iff hn).1 hx |>.1 rfl
      omega)
    have h2 := List.length_erase (a := n) (l := l)
    split at h2 <;> omega

theorem Facts.committed_returned (h : Facts m w cap tr) {pre : Trace V} (hp : pre <+: tr) {a : OpId}
    (hc : Committed pre a) : Returned pre a := by
  obtain ⟨i, v, hm⟩ := hc
  obtain ⟨x, y, rfl⟩ := mem_split hm
  obtain ⟨z, hz⟩ := hp
  obtain ⟨_, ⟨r, hr⟩, _⟩ := h.evOk (pre := x) (e := .commit a i v) (post := y ++ z) (by rw [← hz]; simp)
  exact ⟨r, List.mem_append_left _ hr⟩

theorem Facts.dequeued_committed (h : Facts m w cap tr) {pre : Trace V} (hp : pre <+: tr) {a : OpId} {p : Nat}
    (hr : (resOps pre)[p]? = some a) (hd : p < nDeq pre) : Committed pre a := by
  obtain ⟨b, hb⟩ : ∃ b, (deqOps pre)[p]? = some b := ⟨_, List.getElem?_eq_getElem hd⟩
  obtain ⟨x, i, v, y, rfl, rfl⟩ := deqOps_split hb
  obtain ⟨z, hz⟩ := hp
  obtain ⟨_, _, _, b', x', hb', rfl, hc⟩ :=
    h.evOk (pre := x) (e := .dequeue b i v) (post := y ++ z) (by rw [← hz]; simp)
  have := getElem?_prefix (resOps_prefix (List.prefix_append x (.dequeue b i (some x') :: y))) hb'
  have : b' = a := Option.some.inj (this.symm.trans hr)
  subst this
  exact ⟨i, _, List.mem_append_left _ hc⟩

theorem Facts.fifo (h : Facts m w cap tr) :
    deqVals tr = ((resOps tr).take (nDeq tr)).map (sent tr) ∧ (∀ v ∈ deqVals tr, v ≠ none) := by
  have key : ∀ pre, pre <+: tr → deqVals pre = ((resOps tr).take (nDeq pre)).map (sent tr) ∧
      (∀ v ∈ deqVals pre, v ≠ none) := by
    refine prefix_induction (by simp [deqVals]) ?_
    intro pre e post htr ih
    have he := h.evOk htr
    cases e with
    | dequeue a i v =>
      obtain ⟨_, _, hlt, b, x, hb, rfl, hc⟩ := he
      have hb' := getElem?_prefix (resOps_prefix (⟨_, htr.symm⟩ : pre <+: tr)) hb
      have hc' : Event.commit b i (some x) ∈ tr := by rw [htr]; exact List.mem_append_left _ hc
      have h1 : deqVals (pre ++ [Event.dequeue a i (some x)]) = deqVals pre ++ [some x] := by
        simp [deqVals]
      have h2 : nDeq (pre ++ [Event.dequeue a i (some x)]) = nDeq pre + 1 := by simp [nDeq, deqOps]
      rw [h1, h2, List.take_add_one, hb', ih.1]
      refine ⟨by simp [h.sent_eq hc'], ?_⟩
      rw [← ih.1]
      intro v hv
      rcases List.mem_append.1 hv with hv | hv
      · exact ih.2 v hv
      · simp at hv; simp [hv]
    | _ => simpa [deqVals, nDeq, deqOps] using ih
  exact key tr (List.prefix_refl _)

theorem Facts.fifo_once (h : Facts m w cap tr) :
    (resOps tr).Nodup ∧ (deqOps tr).Nodup ∧
    (∀ a i v i' v', Event.commit a i v ∈ tr → Event.commit a i' v' ∈ tr → i = i' ∧ v = v') ∧
    (∀ pre a i v post, tr = pre ++ .commit a i v :: post → a ∈ resOps pre ∧ v = content a pre) ∧
    (∀ pre b i v post, tr = pre ++ .dequeue b i v :: post →
      ∃ a, (resOps pre)[nDeq pre]? = some a ∧ Event.commit a i v ∈ pre) := by
  refine ⟨h.nodup_res, h.nodup_deq, fun _ _ _ _ _ h1 h2 => h.commit_unique h1 h2, ?_, ?_⟩
  · intro pre a i v post htr
    obtain ⟨⟨p, _, hp⟩, _, hv, _⟩ := h.evOk htr
    exact ⟨List.mem_of_getElem? hp.res, hv⟩
  · intro pre b i v post htr
    obtain ⟨_, _, _, a, x, ha, rfl, hc⟩ := h.evOk htr
    exact ⟨a, ha, hc⟩

theorem Facts.capacity (h : Facts m w cap tr) {pre : Trace V} (hp : pre <+: tr) :
    nDeq pre ≤ nRes pre ∧ ((resOps pre).drop (nDeq pre)).length ≤ cap ∧
    ∀ a i, Event.reserve a i ∈ pre → ¬ Committed pre a → a ∈ (resOps pre).drop (nDeq pre) := by
  obtain ⟨h1, h2⟩ := h.bounds hp
  refine ⟨h1, ?_, ?_⟩
  · rw [List.length_drop]; have : nRes pre = (resOps pre).length := rfl; omega
  · intro a i hr hc
    obtain ⟨z, hz⟩ := id hp
    have hnr : ¬ Released pre a := by
      rintro ⟨j, v, hm⟩
      obtain ⟨x, y, rfl⟩ := mem_split hm
      have he := h.evOk (pre := x) (e := .release a j v) (post := y ++ z) (by rw [← hz]; simp)
      obtain ⟨⟨p, _, hpop⟩, _⟩ := he
      have hd := hpop.deq
      have hpx : x <+: x ++ .release a j v :: y := List.prefix_append _ _
      have hd' := getElem?_prefix (deqOps_prefix hpx) hd
      have hm' := List.mem_of_getElem? hd'
      obtain ⟨j', v', hm'⟩ := mem_deqOps.1 hm'
      have ha := mem_resOps.2 ⟨_, hr⟩
      -- `a` was invoked both as a push and as a pop
      obtain ⟨x1, y1, h1'⟩ := mem_split hr
      have e1 := h.evOk (pre := x1) (e := .reserve a i) (post := y1 ++ z) (by rw [← hz, h1']; simp)
      obtain ⟨x2, y2, h2'⟩ := mem_split hm'
      have e2 := h.evOk (pre := x2) (e := .dequeue a j' v') (post := y2 ++ z)
        (by rw [← hz, h2']; simp)
      have i1 : Event.invoke a .push ∈ tr := by
        rw [← hz, h1']; simp [e1.1.inv]
      have i2 : Event.invoke a .pop ∈ tr := by
        rw [← hz, h2']; simp [e2.1.inv]
      exact absurd (h.invoke_unique i1 i2) (by simp)
    have hh : Holds pre a i := ⟨.inl hr, hc, hnr⟩
    obtain ⟨p, _, ⟨h3, h4⟩ | ⟨h3, h4⟩⟩ := h.holds_pos hp hh
    · refine List.mem_of_getElem? (i := p - nDeq pre) ?_
      rw [List.getElem?_drop, show nDeq pre + (p - nDeq pre) = p by omega]; exact h3
    · exfalso
      obtain ⟨j', v', hm'⟩ := mem_deqOps.1 (List.mem_of_getElem? h3)
      obtain ⟨x1, y1, h1'⟩ := mem_split hr
      have e1 := h.evOk (pre := x1) (e := .reserve a i) (post := y1 ++ z) (by rw [← hz, h1']; simp)
      obtain ⟨x2, y2, h2'⟩ := mem_split hm'
      have e2 := h.evOk (pre := x2) (e := .dequeue a j' v') (post := y2 ++ z)
        (by rw [← hz, h2']; simp)
      have i1 : Event.invoke a .push ∈ tr := by
        rw [← hz, h1']; simp [e1.1.inv]
      have i2 : Event.invoke a .pop ∈ tr := by
        rw [← hz, h2']; simp [e2.1.inv]
      exact absurd (h.invoke_unique i1 i2) (by simp)

theorem Facts.full_truthful (h : Facts m w cap tr) {pre post : Trace V} {a : OpId}
    (htr : tr = pre ++ .ret a .full :: post) :
    Pending pre a ∧ Event.invoke a .push ∈ pre ∧ nRes pre = nDeq pre + cap := by
  obtain ⟨h1, h2, _, _, h3, h4, _⟩ := h.evOk htr
  exact ⟨⟨h1, h2⟩, h3, h4⟩

theorem Facts.exclusive (h : Facts m w cap tr) :
    (∀ pre a b i, pre <+: tr → Holds pre a i → Holds pre b i → a = b) ∧
    (∀ pre a i k post, tr = pre ++ .access a i k :: post → Holds pre a i) ∧
    (∀ pre a i v post, tr = pre ++ .commit a i v :: post → Holds pre a i) ∧
    (∀ pre a i v post, tr = pre ++ .release a i v :: post → Holds pre a i) := by
  refine ⟨fun pre a b i hp => h.holds_unique hp, ?_, ?_, ?_⟩
  · intro pre a i k post htr
    exact h.own_holds ⟨_, htr.symm⟩ (h.evOk htr).1
  · intro pre a i v post htr
    obtain ⟨⟨p, hp, ho⟩, _⟩ := h.evOk htr
    exact h.own_holds ⟨_, htr.symm⟩ ⟨p, hp, .inl ho⟩
  · intro pre a i v post htr
    obtain ⟨⟨p, hp, ho⟩, _⟩ := h.evOk htr
    exact h.own_holds ⟨_, htr.symm⟩ ⟨p, hp, .inr ho⟩

theorem Facts.claim_exclusive (h : Facts m w cap tr) {pre post : Trace V} {a : OpId} {i : Nat}
    {e : Event V} (htr : tr = pre ++ e :: post)
    (he : e = .reserve a i ∨ ∃ v, e = .dequeue a i v) (b : OpId) : ¬ Holds pre b i := by
  intro hb
  have hpe : pre ++ [e] <+: tr := ⟨post, by rw [htr]; simp⟩
  have hab : b ≠ a := by
    rintro rfl
    rcases he with rfl | ⟨v, rfl⟩
    · have := (h.evOk htr).1
      rcases hb.1 with hb | ⟨v, hb⟩
      · exact this.nres (mem_resOps.2 ⟨_, hb⟩)
      · exact this.ndeq (mem_deqOps.2 ⟨_, _, hb⟩)
    · have := (h.evOk htr).1
      rcases hb.1 with hb | ⟨v, hb⟩
      · exact this.nres (mem_resOps.2 ⟨_, hb⟩)
      · exact this.ndeq (mem_deqOps.2 ⟨_, _, hb⟩)
  have hb' : Holds (pre ++ [e]) b i := by
    refine ⟨?_, ?_, ?_⟩
    · rcases hb.1 with hb | ⟨v, hb⟩
      · exact .inl (List.mem_append_left _ hb)
      · exact .inr ⟨v, List.mem_append_left _ hb⟩
    · exact fun hc => (Committed.append.1 hc).elim hb.2.1 (by rcases he with rfl | ⟨v, rfl⟩ <;> simp [Committed])
    · exact fun hc => (Released.append.1 hc).elim hb.2.2 (by rcases he with rfl | ⟨v, rfl⟩ <;> simp [Released])
  have ha' : Holds (pre ++ [e]) a i := by
    have hp : ¬ Committed pre a ∧ ¬ Released pre a := by
      rcases he with rfl | ⟨v, rfl⟩ <;> exact ⟨(h.evOk htr).1.ncom, (h.evOk htr).1.nrel⟩
    refine ⟨?_, ?_, ?_⟩
    · rcases he with rfl | ⟨v, rfl⟩
      · exact .inl (by simp)
      · exact .inr ⟨v, by simp⟩
    · exact fun hc => (Committed.append.1 hc).elim hp.1 (by rcases he with rfl | ⟨v, rfl⟩ <;> simp [Committed])
    · exact fun hc => (Released.append.1 hc).elim hp.2 (by rcases he with rfl | ⟨v, rfl⟩ <;> simp [Released])
  exact hab (h.holds_unique hpe hb' ha')

theorem Facts.in_bounds (h : Facts m w cap tr) (a : OpId) : Event.ret a (.crash .oob) ∉ tr := by
  intro hm
  obtain ⟨pre, post, htr⟩ := mem_split hm
  exact (h.evOk htr).2.2.2.2

theorem Facts.slots_in_bounds (h : Facts m w cap tr) :
    (∀ a i, Event.reserve a i ∈ tr → i < cap) ∧ (∀ a i v, Event.dequeue a i v ∈ tr → i < cap) ∧
    (∀ a i k, Event.access a i k ∈ tr → i < cap) := by
  refine ⟨?_, ?_, ?_⟩
  · intro a i hm
    obtain ⟨pre, post, htr⟩ := mem_split hm
    rw [(h.evOk htr).2.2.1]; exact Nat.mod_lt _ h.sized.1
  · intro a i v hm
    obtain ⟨pre, post, htr⟩ := mem_split hm
    rw [(h.evOk htr).2.1]; exact Nat.mod_lt _ h.sized.1
  · intro a i k hm
    obtain ⟨pre, post, htr⟩ := mem_split hm
    obtain ⟨p, rfl, _⟩ := (h.evOk htr).1
    exact Nat.mod_lt _ h.sized.1

theorem Facts.no_internal_panic (h : Facts m w cap tr) (a : OpId) :
    Event.ret a (.crash .overflow) ∉ tr ∧
    ((∀ b p, Event.invoke b (.close p) ∉ tr) → Event.ret a .closed ∉ tr) := by
  refine ⟨?_, ?_⟩
  · intro hm
    obtain ⟨pre, post, htr⟩ := mem_split hm
    exact (h.evOk htr).2.2.2.2
  · intro hno hm
    obtain ⟨pre, post, htr⟩ := mem_split hm
    obtain ⟨_, _, _, _, ⟨b, hb⟩, _⟩ := h.evOk htr
    obtain ⟨x, y, rfl⟩ := mem_split hb
    have he := h.evOk (pre := x) (e := .close b) (post := y ++ .ret a .closed :: post) (by rw [htr]; simp)
    exact hno b false (by rw [htr]; simp [he.1])

theorem Facts.initialised (h : Facts m w cap tr) :
    (∀ a i v, Event.dequeue a i v ∈ tr → v ≠ none) ∧
    (∀ a i o n, Event.access a i (.recycle o n) ∈ tr → o ≠ none) ∧
    (∀ a i o, Event.access a i (.recyclePanic o) ∈ tr → o ≠ none) ∧
    (∀ a i v, Event.access a i (.read v) ∈ tr → v ≠ none) ∧
    (∀ a i v, Event.commit a i v ∈ tr → v ≠ none) ∧
    (∀ a i v, Event.release a i v ∈ tr → v ≠ none) := by
  refine ⟨?_, ?_, ?_, ?_, ?_, ?_⟩ <;> intro a i
  · intro v hm
    obtain ⟨pre, post, htr⟩ := mem_split hm
    obtain ⟨_, _, _, _, x, _, rfl, _⟩ := h.evOk htr; simp
  · intro o n hm
    obtain ⟨pre, post, htr⟩ := mem_split hm
    obtain ⟨_, _, _, _, _, _, x, _, _, _, _, _, rfl, _⟩ := h.evOk htr; simp
  · intro o hm
    obtain ⟨pre, post, htr⟩ := mem_split hm
    obtain ⟨_, _, _, _, _, _, x, _, _, _, _, _, rfl, _⟩ := h.evOk htr; simp
  · intro v hm
    obtain ⟨pre, post, htr⟩ := mem_split hm
    obtain ⟨_, _, _, x, rfl⟩ := h.evOk htr; simp
  · intro v hm
    obtain ⟨pre, post, htr⟩ := mem_split hm
    obtain ⟨_, _, _, x, rfl⟩ := h.evOk htr; simp
  · intro v hm
    obtain ⟨pre, post, htr⟩ := mem_split hm
    obtain ⟨_, _, _, x, rfl⟩ := h.evOk htr; simp

theorem Facts.reads_last_write (h : Facts m w cap tr) {pre post : Trace V} {a : OpId} {i : Nat}
    {v : Option V} (htr : tr = pre ++ .access a i (.read v) :: post) : v = content a pre :=
  (h.evOk htr).2.2.1

theorem Facts.recycle (h : Facts m w cap tr) :
    (∀ pre a i o n post, tr = pre ++ .access a i (.recycle o n) :: post →
      o = lastLeft i pre ∧ o ≠ none ∧ ¬ Returned pre a) ∧
    (∀ pre a i o post, tr = pre ++ .access a i (.recyclePanic o) :: post →
      o = lastLeft i pre ∧ o ≠ none ∧ ¬ Returned pre a) ∧
    (∀ a, (inits a tr).length ≤ 1) ∧
    (∀ a, Event.ret a .pushed ∈ tr → (inits a tr).length = 1) := by
  refine ⟨?_, ?_, h.invY.one, h.invY.pushed⟩
  · intro pre a i o n post htr
    obtain ⟨_, h1, _, h2, _, _, x, _, _, _, _, _, rfl, _⟩ := h.evOk htr
    exact ⟨h2, by simp, h1⟩
  · intro pre a i o post htr
    obtain ⟨_, h1, _, h2, _, _, x, _, _, _, _, _, rfl, _⟩ := h.evOk htr
    exact ⟨h2, by simp, h1⟩

theorem Facts.create (h : Facts m w cap tr) (hwrap : nRes tr ≤ period w cap) :
    (∀ pre a i v post, tr = pre ++ .access a i (.create v) :: post →
      ∀ b k, Event.access b i k ∉ pre) ∧
    (createdSlots tr).length ≤ cap := by
  have hpos := h.sized.1
  have first : ∀ pre a i v post, tr = pre ++ .access a i (.create v) :: post →
      ∀ b k, Event.access b i k ∉ pre := by
    intro pre a i v post htr b k hm
    have hpre : pre <+: tr := ⟨_, htr.symm⟩
    obtain ⟨_, hnr, hini, p, hp, rfl, hg⟩ := h.evOk htr
    have hplt : p < cap := by
      have h1 : p < nRes tr :=
        Nat.lt_of_lt_of_le (lt_of_getElem?_some hp) (nRes_mono hpre)
      have h2 : p / cap < numGens w cap := by
        apply Nat.div_lt_of_lt_mul
        show p < period w cap
        omega
      rw [Nat.mod_eq_of_lt h2] at hg
      exact (Nat.div_eq_zero_iff.1 hg).resolve_left (by omega)
    obtain ⟨x, y, rfl⟩ := mem_split hm
    have hx : x <+: tr := ⟨.access b (p % cap) k :: (y ++ .access a (p % cap) (.create v) :: post),
      by rw [htr]; simp⟩
    have hxp : x <+: x ++ .access b (p % cap) k :: y := List.prefix_append _ _
    have he := h.evOk (pre := x) (e := .access b (p % cap) k)
      (post := y ++ .access a (p % cap) (.create v) :: post) (by rw [htr]; simp)
    obtain ⟨⟨q, hq, hown⟩, hk⟩ := he
    obtain ⟨hb1, hb2⟩ := h.bounds hx
    have hqp : p ≤ q := by
      rw [Nat.mod_eq_of_lt hplt] at hq
      have := Nat.mod_le q cap
      omega
    -- if position `p` has been dequeued, its push has returned
    have done : p < nDeq x → False := by
      intro hlt
      obtain ⟨c, hc⟩ : ∃ c, (resOps x)[p]? = some c :=
        ⟨_, List.getElem?_eq_getElem (show p < nRes x by omega)⟩
      have := getElem?_prefix (resOps_prefix hxp) hc
      have : c = a := Option.some.inj (this.symm.trans hp)
      subst this
      have := h.committed_returned hx (h.dequeued_committed hx hc hlt)
      obtain ⟨r, hr⟩ := this
      exact hnr ⟨r, hxp.subset hr⟩
    rcases hown with ho | ho
    · have h1 := ho.lt
      by_cases hqe : q = p
      · subst hqe
        have := getElem?_prefix (resOps_prefix hxp) ho.res
        have : b = a := Option.some.inj (this.symm.trans hp)
        subst this
        cases k with
        | create v' => simp [inits] at hini
        | recycle o n => simp [inits] at hini
        | recyclePanic o => simp [inits] at hini
        | read v' => obtain ⟨⟨r, hr⟩, _⟩ := hk; exact hnr ⟨r, hxp.subset hr⟩
        | write v' => obtain ⟨r, hr⟩ := hk; exact hnr ⟨r, hxp.subset hr⟩
      · have : p + cap ≤ q := by
          have hq' := hq
          rw [Nat.mod_eq_of_lt hplt] at hq'
          apply Nat.le_of_not_lt
          intro hlt
          exact hqe (mod_inj_window (H := p) hq.symm hqp hlt (Nat.le_refl _) (by omega))
        exact done (by omega)
    · have h1 := ho.lt
      exact done (by omega)
  refine ⟨first, ?_⟩
  have hall : ∀ x ∈ createdSlots tr, x < cap := by
    intro x hx
    obtain ⟨e, he, hex⟩ := List.mem_filterMap.1 hx
    cases e with
    | access a i k =>
      cases k with
      | create v =>
        simp at hex
        subst hex
        exact (h.slots_in_bounds).2.2 a i _ he
      | _ => simp at hex
    | _ => simp at hex
  refine length_le_of_nodup_lt ?_ hall
  refine prefix_induction (M := fun pre => (createdSlots pre).Nodup) (by simp [createdSlots]) ?_ tr
    (List.prefix_refl _)
  intro pre e post htr ih
  have keep : createdSlots [e] = [] → (createdSlots (pre ++ [e])).Nodup := by
    intro h0
    have : createdSlots (pre ++ [e]) = createdSlots pre ++ createdSlots [e] := by simp [createdSlots]
    rw [this, h0, List.append_nil]; exact ih
  cases e with
  | access a i k =>
    cases k with
    | create v =>
      have hf := first pre a i v post htr
      have : createdSlots (pre ++ [Event.access a i (.create v)]) = createdSlots pre ++ [i] := by
        simp [createdSlots]
      rw [this, List.nodup_append]
      refine ⟨ih, by simp, ?_⟩
      intro x hx y hy hxy
      simp at hy
      subst hy
      subst hxy
      obtain ⟨e, he, hex⟩ := List.mem_filterMap.1 hx
      cases e with
      | access b j k =>
        cases k with
        | create v' =>
          simp at hex
          subst hex
          exact hf b _ he
        | _ => simp at hex
      | _ => simp at hex
    | _ => exact keep rfl
  | _ => exact keep rfl

theorem Facts.drained_before_closed (h : Facts m w cap tr) {pre post : Trace V} {a : OpId}
    (htr : tr = pre ++ .ret a .closed :: post) (hpop : Event.invoke a .pop ∈ pre) :
    Closed pre ∧ nDeq pre = nRes tr := by
  obtain ⟨_, _, _, _, hcl, hor⟩ := h.evOk htr
  refine ⟨hcl, ?_⟩
  have hpre : pre <+: tr := ⟨_, htr.symm⟩
  have heq : nDeq pre = nRes pre := by
    rcases hor with hp | ⟨_, hp⟩
    · have := h.invoke_unique (hpre.subset hp) (hpre.subset hpop)
      cases this
    · exact hp
  -- no reservation happens after `pre`
  have hres : resOps (Event.ret a .closed :: post) = [] := by
    cases hl : resOps (Event.ret a .closed :: post) with
    | nil => rfl
    | cons b l =>
      exfalso
      have hm : b ∈ resOps (Event.ret a .closed :: post) := by rw [hl]; simp
      obtain ⟨i, hm⟩ := mem_resOps.1 hm
      obtain ⟨x, y, hxy⟩ := mem_split hm
      rw [hxy, ← List.append_assoc] at htr
      refine (h.evOk htr).2.1 ?_
      obtain ⟨c, hc⟩ := hcl
      exact ⟨c, List.mem_append_left _ hc⟩
  rw [heq, htr, nRes_append]
  simp [nRes, hres]

theorem Facts.producer_order (h : Facts m w cap tr) {pre post : Trace V} {a b : OpId} {op : Op} {p q : Nat}
    (htr : tr = pre ++ .invoke b op :: post) (hret : Returned pre a)
    (ha : (resOps tr)[p]? = some a) (hb : (resOps tr)[q]? = some b) : p < q := by
  have hpre : pre <+: tr := ⟨_, htr.symm⟩
  obtain ⟨x, i, y, hx, rfl⟩ := resOps_split ha
  obtain ⟨x', i', y', hx', rfl⟩ := resOps_split hb
  have ea := (h.evOk hx).1
  have eb := (h.evOk hx').1
  have h1 : x <+: pre := by
    rcases List.prefix_or_prefix_of_prefix (⟨_, hx.symm⟩ : x <+: tr) hpre with hp | hp
    · exact hp
    · obtain ⟨r, hr⟩ := hret
      exact absurd ⟨r, hp.subset hr⟩ ea.nret
  have h2 : pre <+: x' := by
    rcases List.prefix_or_prefix_of_prefix (⟨_, hx'.symm⟩ : x' <+: tr) hpre with hp | hp
    · exact absurd ⟨_, hp.subset eb.inv⟩ (h.evOk htr).1
    · exact hp
  have hap : x ++ [Event.reserve a i] <+: x' := by
    have hxa : x ++ [Event.reserve a i] <+: tr := ⟨y, by rw [hx]; simp⟩
    rcases List.prefix_or_prefix_of_prefix hxa (⟨_, hx'.symm⟩ : x' <+: tr) with hp | hp
    · exact hp
    · have hlen : pre.length ≤ x.length + 1 := by
        have := (h2.trans hp).length_le
        simpa using this
      have hlen' := h1.length_le
      have hxp : ¬ Returned x a := ea.nret
      exfalso
      obtain ⟨r, hr⟩ := hret
      have := (h2.trans hp).subset hr
      rcases List.mem_append.1 this with hm | hm
      · exact hxp ⟨r, hm⟩
      · simp at hm
  have hl := nRes_mono hap
  have : nRes (x ++ [Event.reserve a i]) = nRes x + 1 := by simp [nRes, resOps]
  omega

end Thingbuf
