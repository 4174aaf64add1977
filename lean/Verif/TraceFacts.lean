import Verif.CoreEvents
/-
Consequences of `EvOk`, stated on traces.
-/
namespace Thingbuf

variable {w cap : Nat} {V : Type}

theorem prefix_induction {tr : Trace V} {M : Trace V → Prop} (h0 : M [])
    (hs : ∀ pre e post, tr = pre ++ e :: post → M pre → M (pre ++ [e])) :
    ∀ pre, pre <+: tr → M pre := by
  have key : ∀ n pre, pre.length = n → pre <+: tr → M pre := by
    intro n
    induction n with
    | zero => intro pre hl _; rw [List.length_eq_zero_iff.1 hl]; exact h0
    | succ n ih =>
      intro pre hl hp
      have hne : pre ≠ [] := by rintro rfl; simp at hl
      obtain ⟨post, rfl⟩ := hp
      rw [← List.dropLast_concat_getLast hne]
      refine hs _ _ post ?_ (ih _ (by simp [hl]) ?_)
      · rw [← List.singleton_append, ← List.append_assoc, List.dropLast_concat_getLast hne]
      · exact (List.dropLast_prefix pre).trans (List.prefix_append _ _)
  exact fun pre hp => key _ pre rfl hp

theorem mem_split {tr : Trace V} {e : Event V} (h : e ∈ tr) : ∃ pre post, tr = pre ++ e :: post :=
  List.append_of_mem h

theorem resOps_split {tr : Trace V} {k : Nat} {a : OpId} (h : (resOps tr)[k]? = some a) :
    ∃ pre i post, tr = pre ++ .reserve a i :: post ∧ nRes pre = k := by
  induction tr generalizing k with
  | nil => simp at h
  | cons e tr ih =>
    have hc : resOps (e :: tr) = resOps [e] ++ resOps tr := by rw [← resOps_append]; rfl
    by_cases hr : ∃ b i, e = .reserve b i
    · obtain ⟨b, i, rfl⟩ := hr
      cases k with
      | zero =>
        simp [resOps] at h
        subst h
        exact ⟨[], i, tr, rfl, rfl⟩
      | succ k =>
        rw [hc] at h
        have h' : (resOps tr)[k]? = some a := by simpa [resOps] using h
        obtain ⟨pre, j, post, rfl, hk⟩ := ih h'
        refine ⟨.reserve b i :: pre, j, post, rfl, ?_⟩
        subst hk; simp [nRes, resOps]
    · have h0 : resOps [e] = [] := by
        cases e <;> first | rfl | exact absurd ⟨_, _, rfl⟩ hr
      rw [hc, h0, List.nil_append] at h
      obtain ⟨pre, j, post, rfl, hk⟩ := ih h
      refine ⟨e :: pre, j, post, rfl, ?_⟩
      have : nRes (e :: pre) = nRes [e] + nRes pre := by rw [← nRes_append]; rfl
      rw [this, nRes, h0, hk]; simp

theorem deqOps_split {tr : Trace V} {k : Nat} {a : OpId} (h : (deqOps tr)[k]? = some a) :
    ∃ pre i v post, tr = pre ++ .dequeue a i v :: post ∧ nDeq pre = k := by
  induction tr generalizing k with
  | nil => simp at h
  | cons e tr ih =>
    have hc : deqOps (e :: tr) = deqOps [e] ++ deqOps tr := by rw [← deqOps_append]; rfl
    by_cases hr : ∃ b i v, e = .dequeue b i v
    · obtain ⟨b, i, v, rfl⟩ := hr
      cases k with
      | zero =>
        simp [deqOps] at h
        subst h
        exact ⟨[], i, v, tr, rfl, rfl⟩
      | succ k =>
        rw [hc] at h
        have h' : (deqOps tr)[k]? = some a := by simpa [deqOps] using h
        obtain ⟨pre, j, v', post, rfl, hk⟩ := ih h'
        refine ⟨.dequeue b i v :: pre, j, v', post, rfl, ?_⟩
        subst hk; simp [nDeq, deqOps]
    · have h0 : deqOps [e] = [] := by
        cases e <;> first | rfl | exact absurd ⟨_, _, _, rfl⟩ hr
      rw [hc, h0, List.nil_append] at h
      obtain ⟨pre, j, v', post, rfl, hk⟩ := ih h
      refine ⟨e :: pre, j, v', post, rfl, ?_⟩
      have : nDeq (e :: pre) = nDeq [e] + nDeq pre := by rw [← nDeq_append]; rfl
      rw [this, nDeq, h0, hk]; simp

theorem resOps_at {pre post : Trace V} {a : OpId} {i : Nat} :
    (resOps (pre ++ .reserve a i :: post))[nRes pre]? = some a := by
  simp only [resOps_append, nRes]
  rw [List.getElem?_append_right (Nat.le_refl _)]
  simp [resOps]

theorem deqOps_at {pre post : Trace V} {a : OpId} {i : Nat} {v : Option V} :
    (deqOps (pre ++ .dequeue a i v :: post))[nDeq pre]? = some a := by
  simp only [deqOps_append, nDeq]
  rw [List.getElem?_append_right (Nat.le_refl _)]
  simp [deqOps]

section
variable {m : Prop} {tr : Trace V} {s : State w V}

/-- What the trace-level properties are proved from.  With `m := False` it holds under
release/acquire memory too (`RelAcqProps`); `m := True` adds what needs sequential consistency. -/
structure Facts (m : Prop) (w cap : Nat) (tr : Trace V) : Prop where
  sized : WellSized w cap
  all : AllFrom (EvOk m w cap) [] tr
  invY : InvY tr

theorem Facts.evOk (h : Facts m w cap tr) {pre post : Trace V} {e : Event V}
    (he : tr = pre ++ e :: post) : EvOk m w cap pre e := by
  have := h.all
  rw [he] at this
  simpa using this.split

/-- The bounds hold at every instant, not only between steps. -/
theorem Facts.bounds (h : Facts m w cap tr) {pre : Trace V} (hp : pre <+: tr) :
    nDeq pre ≤ nRes pre ∧ nRes pre ≤ nDeq pre + cap := by
  refine prefix_induction (M := fun pre => nDeq pre ≤ nRes pre ∧ nRes pre ≤ nDeq pre + cap)
    (by simp) ?_ pre hp
  intro pre e post htr ih
  have := h.evOk htr
  cases e with
  | reserve a i =>
    obtain ⟨_, _, _, _, hlt, _⟩ := this
    simp [nRes, nDeq, resOps, deqOps] at *
    omega
  | dequeue a i v =>
    obtain ⟨_, _, hlt, _⟩ := this
    simp [nRes, nDeq, resOps, deqOps] at *
    omega
  | _ => simpa [nRes, nDeq, resOps, deqOps] using ih

theorem Facts.nodup_res (h : Facts m w cap tr) : (resOps tr).Nodup := by
  refine prefix_induction (M := fun pre => (resOps pre).Nodup) (by simp) ?_ tr (List.prefix_refl _)
  intro pre e post htr ih
  have := h.evOk htr
  cases e with
  | reserve a i =>
    have hn := this.1.nres
    rw [resOps_append]
    simp [resOps, List.nodup_append] at *
    refine ⟨ih, ?_⟩
    intro x e he hx hxa
    subst hxa
    exact hn e he hx
  | _ => simpa [resOps] using ih

theorem Facts.nodup_deq (h : Facts m w cap tr) : (deqOps tr).Nodup := by
  refine prefix_induction (M := fun pre => (deqOps pre).Nodup) (by simp) ?_ tr (List.prefix_refl _)
  intro pre e post htr ih
  have := h.evOk htr
  cases e with
  | dequeue a i v =>
    have hn := this.1.ndeq
    rw [deqOps_append]
    simp [deqOps, List.nodup_append] at *
    refine ⟨ih, ?_⟩
    intro x e he hx hxa
    subst hxa
    exact hn e he hx
  | _ => simpa [deqOps] using ih

theorem nodup_idx {l : List OpId} (h : l.Nodup) {i j : Nat} {a : OpId} (hi : l[i]? = some a)
    (hj : l[j]? = some a) : i = j := by
  obtain ⟨h1, h1'⟩ := List.getElem?_eq_some_iff.1 hi
  obtain ⟨h2, h2'⟩ := List.getElem?_eq_some_iff.1 hj
  exact (List.getElem_inj h).1 (h1'.trans h2'.symm)

theorem getElem?_prefix {l l' : List OpId} (h : l <+: l') {i : Nat} {a : OpId} (hi : l[i]? = some a) :
    l'[i]? = some a := by
  obtain ⟨u, rfl⟩ := h; exact getElem?_append_of_some hi

theorem resOps_prefix {t u : Trace V} (h : t <+: u) : resOps t <+: resOps u := by
  obtain ⟨v, rfl⟩ := h; simp

theorem deqOps_prefix {t u : Trace V} (h : t <+: u) : deqOps t <+: deqOps u := by
  obtain ⟨v, rfl⟩ := h; simp

theorem Facts.slot_res (h : Facts m w cap tr) {pre : Trace V} (hp : pre <+: tr) {a : OpId} {p : Nat}
    (hr : (resOps pre)[p]? = some a) : Event.reserve a (p % cap) ∈ pre := by
  obtain ⟨x, i, y, rfl, rfl⟩ := resOps_split hr
  obtain ⟨z, rfl⟩ := hp
  have := h.evOk (pre := x) (e := .reserve a i) (post := y ++ z) (by simp)
  rw [← this.2.2.1]; simp

theorem Facts.slot_deq (h : Facts m w cap tr) {pre : Trace V} (hp : pre <+: tr) {a : OpId} {p : Nat}
    (hr : (deqOps pre)[p]? = some a) : ∃ v, Event.dequeue a (p % cap) v ∈ pre := by
  obtain ⟨x, i, v, y, rfl, rfl⟩ := deqOps_split hr
  obtain ⟨z, rfl⟩ := hp
  have := h.evOk (pre := x) (e := .dequeue a i v) (post := y ++ z) (by simp)
  rw [← this.2.1]; exact ⟨v, by simp⟩

/-- Owners hold their slot. -/
theorem Facts.own_holds (h : Facts m w cap tr) {pre : Trace V} (hp : pre <+: tr) {a : OpId} {i : Nat}
    (ho : Own cap pre a i) : Holds pre a i := by
  obtain ⟨p, rfl, ho | ho⟩ := ho
  · exact ⟨.inl (h.slot_res hp ho.res), ho.ncom, ho.nrel⟩
  · exact ⟨.inr (h.slot_deq hp ho.deq), ho.ncom, ho.nrel⟩

/-- The position behind a held slot. -/
theorem Facts.holds_pos (h : Facts m w cap tr) {pre : Trace V} (hp : pre <+: tr) {a : OpId} {i : Nat}
    (ho : Holds pre a i) : ∃ p, i = p % cap ∧
      (((resOps pre)[p]? = some a ∧ nDeq pre ≤ p) ∨ ((deqOps pre)[p]? = some a ∧ nRes pre ≤ p + cap)) := by
  obtain ⟨hc, hnc, hnr⟩ := ho
  rcases hc with hc | ⟨v, hc⟩
  · obtain ⟨x, y, rfl⟩ := mem_split hc
    obtain ⟨z, hz⟩ := id hp
    have he := h.evOk (pre := x) (e := .reserve a i) (post := y ++ z) (by rw [← hz]; simp)
    refine ⟨nRes x, he.2.2.1, .inl ⟨resOps_at, Nat.le_of_not_lt fun hlt => ?_⟩⟩
    obtain ⟨b, hb⟩ : ∃ b, (deqOps (x ++ .reserve a i :: y))[nRes x]? = some b :=
      ⟨_, List.getElem?_eq_getElem hlt⟩
    obtain ⟨x', j, v, y', hxy, hk⟩ := deqOps_split hb
    have he' := h.evOk (pre := x') (e := .dequeue b j v) (post := y' ++ z) (by rw [← hz, hxy]; simp)
    obtain ⟨_, _, _, b', w', hb', _, hcm⟩ := he'
    have hpre : x' <+: x ++ .reserve a i :: y := hxy ▸ List.prefix_append _ _
    rw [hk] at hb'
    have h1 := getElem?_prefix (resOps_prefix hpre) hb'
    rw [resOps_at] at h1
    have : b' = a := (Option.some.inj h1).symm
    subst this
    exact hnc ⟨_, _, hpre.subset hcm⟩
  · obtain ⟨x, y, rfl⟩ := mem_split hc
    obtain ⟨z, hz⟩ := id hp
    have he := h.evOk (pre := x) (e := .dequeue a i v) (post := y ++ z) (by rw [← hz]; simp)
    refine ⟨nDeq x, he.2.1, .inr ⟨deqOps_at, Nat.le_of_not_lt fun hlt => ?_⟩⟩
    obtain ⟨b, hb⟩ : ∃ b, (resOps (x ++ .dequeue a i v :: y))[nDeq x + cap]? = some b :=
      ⟨_, List.getElem?_eq_getElem hlt⟩
    obtain ⟨x', j, y', hxy, hk⟩ := resOps_split hb
    have he' := h.evOk (pre := x') (e := .reserve b j) (post := y' ++ z) (by rw [← hz, hxy]; simp)
    obtain ⟨_, _, _, _, _, hrel⟩ := he'
    have hpre : x' <+: x ++ .dequeue a i v :: y := hxy ▸ List.prefix_append _ _
    obtain ⟨b', hb', hcm⟩ := hrel (by omega)
    rw [show nRes x' - cap = nDeq x by omega] at hb'
    have h1 := getElem?_prefix (deqOps_prefix hpre) hb'
    rw [deqOps_at] at h1
    have : b' = a := (Option.some.inj h1).symm
    subst this
    obtain ⟨i', v', hm⟩ := hcm
    exact hnr ⟨_, _, hpre.subset hm⟩

theorem Facts.holds_unique (h : Facts m w cap tr) {pre : Trace V} (hp : pre <+: tr) {a b : OpId} {i : Nat}
    (ha : Holds pre a i) (hb : Holds pre b i) : a = b := by
  obtain ⟨p, rfl, hp'⟩ := h.holds_pos hp ha
  obtain ⟨q, hm, hq'⟩ := h.holds_pos hp hb
  obtain ⟨h1, h2⟩ := h.bounds hp
  rcases hp' with ⟨h3, h4⟩ | ⟨h3, h4⟩ <;> rcases hq' with ⟨h5, h6⟩ | ⟨h5, h6⟩
  all_goals
    have h7 := lt_of_getElem?_some h3
    have h8 := lt_of_getElem?_some h5
    have e1 : nRes pre = (resOps pre).length := rfl
    have e2 : nDeq pre = (deqOps pre).length := rfl
  · have := mod_inj_window hm h4 (by omega) h6 (by omega)
    subst this
    exact Option.some.inj (h3.symm.trans h5)
  · have : p = q + cap := mod_inj_window (cap := cap) (H := nDeq pre) (by simp [hm]) h4 (by omega)
      (by omega) (by omega)
    omega
  · have : p + cap = q := mod_inj_window (cap := cap) (H := nDeq pre) (by simp [hm]) (by omega) (by omega)
      (by omega) (by omega)
    omega
  · have : p + cap = q + cap := mod_inj_window (cap := cap) (H := nDeq pre) (by simp [hm]) (by omega)
      (by omega) (by omega) (by omega)
    have : p = q := by omega
    subst this
    exact Option.some.inj (h3.symm.trans h5)

theorem Facts.invoke_unique (h : Facts m w cap tr) {a : OpId} {op op' : Op}
    (h1 : Event.invoke a op ∈ tr) (h2 : Event.invoke a op' ∈ tr) : op = op' := by
  obtain ⟨x, y, rfl⟩ := mem_split h1
  have he := h.evOk (pre := x) (e := .invoke a op) (post := y) rfl
  rcases List.mem_append.1 h2 with h2 | h2
  · exact absurd ⟨_, h2⟩ he.1
  · rcases List.mem_cons.1 h2 with h2 | h2
    · injection h2 with _ h2; exact h2.symm
    · obtain ⟨y1, y2, rfl⟩ := mem_split h2
      have he := h.evOk (pre := x ++ .invoke a op :: y1) (e := .invoke a op') (post := y2) (by simp)
      exact absurd ⟨op, by simp⟩ he.1

theorem Facts.ret_unique (h : Facts m w cap tr) {a : OpId} {r r' : Ret}
    (h1 : Event.ret a r ∈ tr) (h2 : Event.ret a r' ∈ tr) : r = r' := by
  obtain ⟨x, y, rfl⟩ := mem_split h1
  have he := h.evOk (pre := x) (e := .ret a r) (post := y) rfl
  rcases List.mem_append.1 h2 with h2 | h2
  · exact absurd ⟨_, h2⟩ he.2.1
  · rcases List.mem_cons.1 h2 with h2 | h2
    · injection h2 with _ h2; exact h2.symm
    · obtain ⟨y1, y2, rfl⟩ := mem_split h2
      have he := h.evOk (pre := x ++ .ret a r :: y1) (e := .ret a r') (post := y2) (by simp)
      exact absurd ⟨r, by simp⟩ he.2.1

theorem Facts.commit_unique (h : Facts m w cap tr) {a : OpId} {i i' : Nat} {v v' : Option V}
    (h1 : Event.commit a i v ∈ tr) (h2 : Event.commit a i' v' ∈ tr) : i = i' ∧ v = v' := by
  obtain ⟨x, y, rfl⟩ := mem_split h1
  have he := h.evOk (pre := x) (e := .commit a i v) (post := y) rfl
  obtain ⟨⟨p, _, hp⟩, _⟩ := he
  rcases List.mem_append.1 h2 with h2 | h2
  · exact absurd ⟨_, _, h2⟩ hp.ncom
  · rcases List.mem_cons.1 h2 with h2 | h2
    · injection h2 with _ h2 h3; exact ⟨h2.symm, h3.symm⟩
    · obtain ⟨y1, y2, rfl⟩ := mem_split h2
      have he := h.evOk (pre := x ++ .commit a i v :: y1) (e := .commit a i' v') (post := y2) (by simp)
      obtain ⟨⟨p, _, hp⟩, _⟩ := he
      exact absurd ⟨i, v, by simp⟩ hp.ncom

theorem Facts.sent_eq (h : Facts m w cap tr) {a : OpId} {i : Nat} {x : V}
    (h1 : Event.commit a i (some x) ∈ tr) : sent tr a = some x := by
  unfold sent
  cases hf : tr.findSome? (fun | .commit b _ v => if b = a then v else none | _ => none) with
  | none =>
    rw [List.findSome?_eq_none_iff] at hf
    have := hf _ h1
    simp at this
  | some y =>
    obtain ⟨e, he, hy⟩ := List.exists_of_findSome?_eq_some hf
    cases e with
    | commit b j v =>
      simp at hy
      obtain ⟨rfl, rfl⟩ := hy
      exact (h.commit_unique h1 he).2.symm
    | _ => simp at hy

theorem Run.facts (h : Run w cap tr s) : Facts True w cap tr :=
  ⟨h.sized, (h.exec.all h.sized h.noStall).2.2.1, (h.exec.all h.sized h.noStall).2.2.2⟩

theorem Run.evOk (h : Run w cap tr s) {pre post : Trace V} {e : Event V}
    (he : tr = pre ++ e :: post) : EvOk True w cap pre e := h.exec.evOk h.sized h.noStall he

theorem Run.inv (h : Run w cap tr s) : Inv True w cap tr s := (h.exec.all h.sized h.noStall).1
theorem Run.invX (h : Run w cap tr s) : InvX w cap tr s := (h.exec.all h.sized h.noStall).2.1
theorem Run.invY (h : Run w cap tr s) : InvY tr := (h.exec.all h.sized h.noStall).2.2.2

theorem Run.bounds (h : Run w cap tr s) {pre : Trace V} (hp : pre <+: tr) :
    nDeq pre ≤ nRes pre ∧ nRes pre ≤ nDeq pre + cap :=
  h.facts.bounds hp

theorem Run.nodup_res (h : Run w cap tr s) : (resOps tr).Nodup :=
  h.facts.nodup_res

theorem Run.nodup_deq (h : Run w cap tr s) : (deqOps tr).Nodup :=
  h.facts.nodup_deq

theorem Run.slot_res (h : Run w cap tr s) {pre : Trace V} (hp : pre <+: tr) {a : OpId} {p : Nat}
    (hr : (resOps pre)[p]? = some a) : Event.reserve a (p % cap) ∈ pre :=
  h.facts.slot_res hp hr

theorem Run.slot_deq (h : Run w cap tr s) {pre : Trace V} (hp : pre <+: tr) {a : OpId} {p : Nat}
    (hr : (deqOps pre)[p]? = some a) : ∃ v, Event.dequeue a (p % cap) v ∈ pre :=
  h.facts.slot_deq hp hr

theorem Run.own_holds (h : Run w cap tr s) {pre : Trace V} (hp : pre <+: tr) {a : OpId} {i : Nat}
    (ho : Own cap pre a i) : Holds pre a i :=
  h.facts.own_holds hp ho

theorem Run.holds_pos (h : Run w cap tr s) {pre : Trace V} (hp : pre <+: tr) {a : OpId} {i : Nat}
    (ho : Holds pre a i) : ∃ p, i = p % cap ∧
      (((resOps pre)[p]? = some a ∧ nDeq pre ≤ p) ∨ ((deqOps pre)[p]? = some a ∧ nRes pre ≤ p + cap)) :=
  h.facts.holds_pos hp ho

theorem Run.holds_unique (h : Run w cap tr s) {pre : Trace V} (hp : pre <+: tr) {a b : OpId} {i : Nat}
    (ha : Holds pre a i) (hb : Holds pre b i) : a = b :=
  h.facts.holds_unique hp ha hb

theorem Run.invoke_unique (h : Run w cap tr s) {a : OpId} {op op' : Op}
    (h1 : Event.invoke a op ∈ tr) (h2 : Event.invoke a op' ∈ tr) : op = op' :=
  h.facts.invoke_unique h1 h2

theorem Run.ret_unique (h : Run w cap tr s) {a : OpId} {r r' : Ret}
    (h1 : Event.ret a r ∈ tr) (h2 : Event.ret a r' ∈ tr) : r = r' :=
  h.facts.ret_unique h1 h2

theorem Run.commit_unique (h : Run w cap tr s) {a : OpId} {i i' : Nat} {v v' : Option V}
    (h1 : Event.commit a i v ∈ tr) (h2 : Event.commit a i' v' ∈ tr) : i = i' ∧ v = v' :=
  h.facts.commit_unique h1 h2

theorem Run.sent_eq (h : Run w cap tr s) {a : OpId} {i : Nat} {x : V}
    (h1 : Event.commit a i (some x) ∈ tr) : sent tr a = some x :=
  h.facts.sent_eq h1

/-- Executions from lists of actions. -/
theorem Exec.of_runActs {tr : Trace V} {s s' : State w V} {acts : List (Act V)} {evs : Trace V}
    (he : Exec w cap tr s) (h : runActs cap s acts = some (s', evs)) : Exec w cap (tr ++ evs) s' := by
  induction acts generalizing tr s evs with
  | nil =>
    simp only [runActs, Option.some.injEq, Prod.mk.injEq] at h
    obtain ⟨rfl, rfl⟩ := h; simpa using he
  | cons act acts ih =>
    unfold runActs at h
    cases h1 : Thingbuf.step cap s act with
    | none => simp [h1] at h
    | some r =>
      obtain ⟨s1, e1⟩ := r
      cases h2 : runActs cap s1 acts with
      | none => simp [h1, h2] at h
      | some r2 =>
        obtain ⟨s2, e2⟩ := r2
        simp only [h1, h2, Option.some.injEq, Prod.mk.injEq] at h
        obtain ⟨rfl, rfl⟩ := h
        rw [← List.append_assoc]
        exact ih (.step he h1) h2

/-- A concrete schedule gives a run. -/
theorem Run.of_acts (hw : WellSized w cap) (acts : List (Act V)) (tr : Trace V)
    (h : (runActs cap (State.init w V) acts).map Prod.snd = some tr)
    (hn : nRes tr + 2 * cap < period w cap) : ∃ s, Run w cap tr s := by
  cases hr : runActs cap (State.init w V) acts with
  | none => simp [hr] at h
  | some r =>
    obtain ⟨s, evs⟩ := r
    simp [hr] at h
    subst h
    exact ⟨s, hw, by simpa using Exec.init.of_runActs hr, NoStall.of_few hn⟩

end

end Thingbuf
