import Verif.ChanLinSend
/-
Linearizability of the channel (C59), continued: the points of the other calls.
-/
namespace Thingbuf.Chan

variable {w : Nat} {V W : Type} {c : Config W} {tr : Trace V W} {s : State w V W} {M M₁ M₂ : Mix V W}

/-! ### The drop of a `SendRef` -/

theorem Mixed.head (h : Mixed c tr s M) {e : Api W} {t : Trace V W}
    (hM : M = M₁ ++ M₂) (he : Mix.evs M₂ = .api e :: t) : ∃ M₃, M₂ = .inl (.api e) :: M₃ := by
  cases M₂ with
  | nil => cases he
  | cons x M₂ =>
    rcases x with x | l
    · simp at he
      exact ⟨M₂, by rw [he.1]⟩
    · rcases h.late _ _ _ hM with h1 | ⟨e', t', h1⟩
      · rw [Mix.evs_inr, h1] at he; cases he
      · rw [Mix.evs_inr, h1] at he; cases he

theorem ExecM.held_ret (h : Exec c tr s) {k : Nat} {a : OpId} (hs : s.snd k = .held a) : .api (.retSend k (.ok a)) ∈ tr := by
  have h1 := h.life k
  rw [hs] at h1
  obtain ⟨z, wt, h2⟩ := h1
  rw [← mem_life (k := k) (by rfl), h2]
  simp

theorem Mixed.publish_point (h : Mixed c tr s M) {a : OpId} {v : V} (hM : M = M₁ ++ .inr (.publish a v) :: M₂) :
    ∃ i M₃, M₂ = .inl (.core (.commit a i (some v))) :: .inl (.api (.dropSend (Chan.owner tr a))) :: M₃ ∧
      .api (.retSend (Chan.owner tr a) (.ok a)) ∈ tr ∧ .core (.commit a i (some v)) ∈ tr := by
  obtain ⟨i, L₃, h1⟩ := h.lin.publish (Mix.core M₁) a v (Mix.core M₂) (by rw [hM]; simp)
  have h2 : ∃ M₃, M₂ = .inl (.core (.commit a i (some v))) :: M₃ := by
    have hl := h.late _ _ _ hM
    cases M₂ with
    | nil => cases h1
    | cons x M₂ =>
      rcases x with x | l
      · rcases hl with hl | ⟨e, t, hl⟩
        · cases hl
        · rw [Mix.evs_inl] at hl
          injection hl with hl1 hl2
          subst hl1
          rw [Mix.core_inl] at h1
          injection h1 with h1
          cases h1
          exact ⟨M₂, rfl⟩
      · cases h1
  obtain ⟨M₃, rfl⟩ := h2
  have htr : tr = Mix.evs M₁ ++ .core (.commit a i (some v)) :: Mix.evs M₃ := by rw [← h.evs, hM]; simp
  obtain ⟨k, s0, post, h3, h4, h5⟩ := h.run.exec.commit_at htr
  have hM' : M = (M₁ ++ [.inr (.publish a v), .inl (.core (.commit a i (some v)))]) ++ M₃ := by rw [hM]; simp
  obtain ⟨M₄, rfl⟩ := h.head hM' h5
  have h6 : .api (.retSend k (.ok a)) ∈ tr := h.sub hM (h3.held_ret h4)
  have h7 := h.run.exec.owner (h.run.exec.ret_ok h6).1
  refine ⟨i, M₄, by rw [h7], by rw [h7]; exact h6, ?_⟩
  rw [htr]; simp

theorem Mixed.sent_split (h : Mixed c tr s M) {N₁ N₂ : CMarked V W} {k : Nat} {v : V}
    (hN : M.flatMap (Chan.point tr) = N₁ ++ .inr (.sent k v) :: N₂) : ∃ a M₁ M₂, owner tr a = k ∧ M = M₁ ++ .inr (.publish a v) :: M₂ ∧
      N₁ = M₁.flatMap (Chan.point tr) ∧ N₂ = M₂.flatMap (Chan.point tr) := by
  rcases point_split hN with ⟨k', M₁, M₂, h1, -⟩ | ⟨l, M₁, M₂, hM, hl, h1, h2⟩
  · cases h1
  · cases l <;> simp only [lab] at hl
    case publish a v' => cases hl; exact ⟨a, M₁, M₂, rfl, hM, h1, h2⟩
    all_goals (try split at hl) <;> (try split at hl) <;> cases hl

theorem Mixed.sentAt (h : Mixed c tr s M) {N₁ N₂ : CMarked V W} {k : Nat} {v : V}
    (hN : M.flatMap (Chan.point tr) = N₁ ++ .inr (.sent k v) :: N₂) : ∃ N₃, N₂ = .inl (.dropSend k) :: N₃ := by
  obtain ⟨a, M₁, M₂, rfl, hM, rfl, rfl⟩ := h.sent_split hN
  obtain ⟨i, M₃, rfl, -, -⟩ := h.publish_point hM
  exact ⟨M₃.flatMap (Chan.point tr), rfl⟩

theorem Mixed.sentValue (h : Mixed c tr s M) {k : Nat} {v : V} (hN : .inr (.sent k v) ∈ M.flatMap (Chan.point tr)) :
    ∃ a i, .api (.retSend k (.ok a)) ∈ tr ∧ .core (.commit a i (some v)) ∈ tr := by
  obtain ⟨N₁, N₂, hN⟩ := List.append_of_mem hN
  obtain ⟨a, M₁, M₂, rfl, hM, rfl, rfl⟩ := h.sent_split hN
  obtain ⟨i, M₃, -, h1, h2⟩ := h.publish_point hM
  exact ⟨a, i, h1, h2⟩

/-- The drop of a `SendRef` commits its message. -/
theorem ExecM.drop_at (h : Exec c tr s) {pre post : Trace V W} {k : Nat} (htr : tr = pre ++ .api (.dropSend k) :: post) :
    ∃ pre0 a i v, pre = pre0 ++ [.core (.commit a i v)] ∧ .api (.attempt k a) ∈ tr := by
  obtain ⟨tr0, l, s0, s1, h0, rfl, h1, h2, h3⟩ := h.at_api htr (by simp)
  cases h1 with
  | api hm hl hr hs => cases hm
  | core es1 es2 h1 hm hl' hr hs =>
    generalize hes : es1 ++ Api.dropSend k :: es2 = es at hm
    generalize hret : coreRet _ = ret at hm
    have hmem : Api.dropSend k ∈ es := by rw [← hes]; simp
    have hev := core_evs h1
    cases hm <;> simp at hmem
    case dropSend j a hp =>
      subst hmem
      have hes1 : es1 = [] := by
        cases es1 with
        | nil => rfl
        | cons y es1 => have := congrArg List.length hes; simp at this
      obtain ⟨i, v, h4⟩ := hev.dropPush a rfl (h0.coreOwns.sat (.snd k) a .pushHeld (by simp [coreClaim, claimOf, hp, sndCore]))
      subst h4 hes1
      refine ⟨tr0, a, i, v, by rw [hl']; simp, ?_⟩
      have := (h0.ret_ok (h0.held_ret hp)).1
      rw [htr]; simp [this]
  | cell es1 es2 h1 hm hl hr hs =>
    generalize hes : es1 ++ Api.dropSend k :: es2 = es at hm
    have : Api.dropSend k ∈ es := by rw [← hes]; simp
    cases hm <;> simp at this
  | queue es1 es2 h1 hm hl' hr hs =>
    generalize hes : es1 ++ Api.dropSend k :: es2 = es at hm
    have hmem : Api.dropSend k ∈ es := by rw [← hes]; simp
    cases hm <;> simp at hmem

theorem snoc_cases {α : Type} (l : List α) : l = [] ∨ ∃ l' x, l = l' ++ [x] := by
  rcases List.eq_nil_or_concat l with h | ⟨l', x, h⟩
  · exact .inl h
  · exact .inr ⟨l', x, by simpa using h⟩

/-- Where an event of the API is in the history of the channel with its points. -/
theorem event_split {N₁ N₂ : CMarked V W} {e : Api W} (he : ∀ k, e ≠ .retSend k .closed)
    (h : M.flatMap (point tr) = N₁ ++ .inl e :: N₂) : ∃ M₁ M₂, M = M₁ ++ .inl (.api e) :: M₂ ∧ N₁ = M₁.flatMap (point tr) ∧
      N₂ = M₂.flatMap (point tr) := by
  obtain ⟨M₁, m, M₂, p, q, h1, h2, h3, h4⟩ := flatMap_split h
  obtain ⟨rfl, rfl, h5⟩ := point_inl h2
  rcases h5 with rfl | ⟨k, h5, -⟩
  · exact ⟨M₁, M₂, h1, by simpa using h3, by simpa using h4⟩
  · exact absurd h5 (he k)

theorem Mixed.dropped (h : Mixed c tr s M) {N₁ N₂ : CMarked V W} {k : Nat} (hN : M.flatMap (Chan.point tr) = N₁ ++ .inl (.dropSend k) :: N₂) :
    ∃ N₀ v, N₁ = N₀ ++ [.inr (.sent k v)] := by
  obtain ⟨M₁, M₂, hM, rfl, -⟩ := event_split (by simp) hN
  have htr : tr = Mix.evs M₁ ++ .api (.dropSend k) :: Mix.evs M₂ := by rw [← h.evs, hM]; simp
  obtain ⟨pre0, a, i, v, h1, h2⟩ := h.run.exec.drop_at htr
  rcases snoc_cases M₁ with rfl | ⟨M₀, x, rfl⟩
  · cases pre0 <;> cases h1
  rcases x with x | l
  · simp at h1
    obtain ⟨h1, rfl⟩ := h1
    obtain ⟨L₀, v', rfl, h3⟩ := h.lin.published (Mix.core M₀) a i v (Mix.core (.inl (.api (.dropSend k)) :: M₂)) (by rw [hM]; simp)
    obtain ⟨A, B', rfl, -, h4⟩ := List.filterMap_eq_append_iff.1 (show M₀.filterMap mixCore = L₀ ++ [.inr (.publish a v')] from h3)
    obtain ⟨A', y, B, rfl, -, h5, h6⟩ := List.filterMap_eq_cons_iff.1 h4
    have h7 : y = .inr (.publish a v') := by
      rcases y with (y | y | y | y) | y <;> simp [mixCore] at h5
      rw [h5]
    subst h7
    have hB : B = [] := by
      obtain ⟨i', M₃, h8, -, -⟩ := h.publish_point (M₁ := A ++ A') (M₂ := B ++ (.inl (.core (.commit a i (some v'))) :: .inl (.api (.dropSend k)) :: M₂)) (a := a) (v := v')
        (by rw [hM]; simp)
      cases B with
      | nil => rfl
      | cons b B =>
        injection h8 with h8 h9
        subst h8
        cases h6
    subst hB
    refine ⟨(A ++ A').flatMap (Chan.point tr), v', ?_⟩
    rw [← h.run.exec.owner h2]
    simp [Chan.point, lab]
  · rcases h.late M₀ l (.inl (.api (.dropSend k)) :: M₂) (by rw [hM]; simp) with h3 | ⟨e, t, h3⟩ <;> cases h3

/-! ### The receive calls -/

theorem split_uniq {E : Type} {x y : E} {p q p' q' : List E} (h : p ++ x :: q = p' ++ y :: q') (h1 : ∀ A B, p' = A ++ x :: B → False)
    (h2 : ∀ A B, p = A ++ y :: B → False) : p = p' ∧ x = y ∧ q = q' := by
  rcases List.append_eq_append_iff.1 h with ⟨l, h3, h4⟩ | ⟨l, h3, h4⟩
  · cases l with
    | nil => simp at h3 h4; exact ⟨h3.symm, h4⟩
    | cons z l => injection h4 with h4 h5; subst h4; exact (h1 _ _ h3).elim
  · cases l with
    | nil => simp at h3 h4; exact ⟨h3, h4.1.symm, h4.2.symm⟩
    | cons z l => injection h4 with h4 h5; subst h4; exact (h2 _ _ h3).elim

theorem coreOf_mid (p q : Trace V W) (e : Event V) : coreOf (p ++ .core e :: q) = coreOf p ++ e :: coreOf q := by
  rw [coreOf_append]; rfl

/-- An operation returns once. -/
theorem Run.ret_split (h : Run c tr s) {a : OpId} {r r' : Ret} {p q p' q' : Trace V W} (h1 : tr = p ++ .core (.ret a r) :: q)
    (h2 : tr = p' ++ .core (.ret a r') :: q') : p = p' ∧ r = r' ∧ q = q' := by
  have key : ∀ (p q : Trace V W) (r r' : Ret) (A B : Trace V W), tr = p ++ .core (.ret a r) :: q → p = A ++ .core (.ret a r') :: B → False := by
    intro p q r r' A B h1 h3
    have := h.core.evOk (show coreOf tr = _ by rw [h1, coreOf_mid])
    exact this.2.1 ⟨r', by rw [h3, coreOf_mid]; simp⟩
  obtain ⟨h3, h4, h5⟩ := split_uniq (h1.symm.trans h2) (fun A B hAB => key p' q' r' r A B h2 hAB) (fun A B hAB => key p q r r' A B h1 hAB)
  cases h4
  exact ⟨h3, rfl, h5⟩

/-- An operation is called once. -/
theorem Run.inv_split (h : Run c tr s) {a : OpId} {r r' : Op} {p q p' q' : Trace V W} (h1 : tr = p ++ .core (.invoke a r) :: q)
    (h2 : tr = p' ++ .core (.invoke a r') :: q') : p = p' ∧ r = r' ∧ q = q' := by
  have key : ∀ (p q : Trace V W) (r r' : Op) (A B : Trace V W), tr = p ++ .core (.invoke a r) :: q → p = A ++ .core (.invoke a r') :: B → False := by
    intro p q r r' A B h1 h3
    have := h.core.evOk (show coreOf tr = _ by rw [h1, coreOf_mid])
    exact this.1 ⟨r', by rw [h3, coreOf_mid]; simp⟩
  obtain ⟨h3, h4, h5⟩ := split_uniq (h1.symm.trans h2) (fun A B hAB => key p' q' r' r A B h2 hAB) (fun A B hAB => key p q r r' A B h1 hAB)
  cases h4
  exact ⟨h3, rfl, h5⟩

theorem Run.decides_uniq (h : Run c tr s) {a : OpId} {e e' : Api W} (h1 : Decides tr a e) (h2 : Decides tr a e') : e = e' := by
  obtain ⟨p, r, q, h1⟩ := h1
  obtain ⟨p', r', q', h2⟩ := h2
  have := (h.ret_split h1 h2).2.2
  injection this with this
  cases this
  rfl

/-- A successful pop operation ends a receive call. -/
theorem Run.popped_decides (h : Run c tr s) {a : OpId} (hr : .core (.ret a .popped) ∈ tr) : ∃ e, RecvRet e ∧ Decides tr a e := by
  have h1 : a ∈ received tr := by
    rw [h.exec.received]
    obtain ⟨x, y, hxy⟩ := List.append_of_mem (mem_coreOf.2 hr)
    have := (h.core.evOk hxy).2.2.1
    rw [hxy, deqOps_append]
    exact List.mem_append_left _ this
  have h2 : .api (.retPoll (.some a)) ∈ tr ∨ .api (.retTry (.ok a)) ∈ tr := by
    obtain ⟨e, h2, h3⟩ := List.mem_filterMap.1 h1
    split at h3 <;> cases h3
    · exact .inl h2
    · exact .inr h2
  have key : ∀ e, e = .retPoll (.some a) ∨ e = .retTry (.ok a) → .api e ∈ tr → ∃ e, RecvRet e ∧ Decides tr a e := by
    intro e he hm
    obtain ⟨pre, post, htr⟩ := List.append_of_mem hm
    have hrr : RecvRet e := he.elim (fun h => .inl ⟨_, h⟩) (fun h => .inr ⟨_, h⟩)
    obtain ⟨tr0, s0, a', r, m, h3, h4, h5, h6⟩ := h.exec.recv_ret htr hrr
    have : a' = a := by
      rcases he with rfl | rfl <;> simp [RetOf] at h6 <;> exact h6.2.symm
    subst this
    exact ⟨e, hrr, tr0 ++ m.map .core, r, post, by rw [htr, h5]; simp⟩
  exact h2.elim (key _ (.inl rfl)) (key _ (.inr rfl))

theorem lab_recv {l : Label V} {x : CLabel V} (h : lab tr l = [x]) (hx : x.IsRecv) :
    ∃ a, l.call = some (a, .pop) ∧ ((∃ v, l = .pop a v) ∨ ∃ e, RecvRet e ∧ Decides tr a e) := by
  cases l <;> simp only [lab] at h
  case pop a v => exact ⟨a, rfl, .inl ⟨v, rfl⟩⟩
  case empty a =>
    split at h
    · rename_i hd; exact ⟨a, rfl, .inr ⟨_, .inl ⟨_, rfl⟩, hd⟩⟩
    · split at h
      · rename_i hd
        rcases hd with hd | hd
        · exact ⟨a, rfl, .inr ⟨_, .inl ⟨_, rfl⟩, hd⟩⟩
        · exact ⟨a, rfl, .inr ⟨_, .inr ⟨_, rfl⟩, hd⟩⟩
      · cases h
  case popClosed a =>
    split at h
    · rename_i hd
      rcases hd with hd | hd
      · exact ⟨a, rfl, .inr ⟨_, .inl ⟨_, rfl⟩, hd⟩⟩
      · exact ⟨a, rfl, .inr ⟨_, .inr ⟨_, rfl⟩, hd⟩⟩
    · cases h
  all_goals (try split at h) <;> (try split at h) <;> cases h <;> cases hx

theorem evs_split {A B : Trace V W} {e : Ev V W} (h : Mix.evs M = A ++ e :: B) :
    ∃ P Q, M = P ++ .inl e :: Q ∧ Mix.evs P = A ∧ Mix.evs Q = B := by
  obtain ⟨P', Q', rfl, h1, h2⟩ := List.filterMap_eq_append_iff.1 (show M.filterMap Sum.getLeft? = A ++ e :: B from h)
  obtain ⟨P, y, Q, rfl, h3, h4, h5⟩ := List.filterMap_eq_cons_iff.1 h2
  have hy : y = .inl e := by cases y <;> simp at h4; rw [h4]
  subst hy
  refine ⟨P' ++ P, Q, by simp, ?_, h5⟩
  have : Mix.evs P = [] := List.filterMap_eq_nil_iff.2 h3
  rw [Mix.evs_append, this, List.append_nil]
  exact h1

theorem point_recv {e : Api W} (h : RecvCall e ∨ RecvRet e) : point (V := V) tr (.inl (.api e)) = [.inl e] := by
  rcases h with (⟨v, rfl⟩ | rfl) | ⟨r, rfl⟩ | ⟨r, rfl⟩ <;> rfl

theorem mem_point_events {e : Api W} (h : .inl e ∈ M.flatMap (point tr)) : .api e ∈ Mix.evs M := by
  rw [← mem_apiOf, ← point_events tr, mem_cevents]
  exact h

theorem noRx_core (m : List (Event V)) : NoRx (m.map .core : Trace V W) := by
  intro e he; simp at he

theorem Mixed.recvDuring (h : Mixed c tr s M) {N₁ N₂ : CMarked V W} {x : CLabel V}
    (hN : M.flatMap (Chan.point tr) = N₁ ++ .inr x :: N₂) (hx : x.IsRecv) : ∃ A e B, N₁ = A ++ .inl e :: B ∧ RecvCall e ∧
      (∀ e', .inl e' ∈ B → ¬ RecvCall e' ∧ ¬ RecvRet e') ∧ ∀ l', .inr l' ∈ B → ¬ l'.IsRecv := by
  rcases point_split hN with ⟨k', M₁, M₂, rfl, -⟩ | ⟨l, M₁, M₂, hM, hl, rfl, rfl⟩
  · cases hx
  obtain ⟨a, hcall, -⟩ := lab_recv hl hx
  obtain ⟨tr0, s0, m, h1, h2, h3, h4, h5, h6⟩ := h.point hM hcall (by simp)
  have h7 := h1.exec.pop_owner h4
  obtain ⟨A, e, B, h8, h9, h10⟩ := h1.exec.rxLive.inCall h7
  have h11 : Mix.evs M₁ = A ++ .api e :: (B ++ m.map .core) := by rw [h2, h8]; simp
  obtain ⟨P, Q, rfl, h12, h13⟩ := evs_split h11
  have hno : NoRx (Mix.evs Q) := by rw [h13]; exact h10.append (noRx_core m)
  refine ⟨P.flatMap (Chan.point tr), e, Q.flatMap (Chan.point tr), ?_, h9, ?_, ?_⟩
  · rw [List.flatMap_append, List.flatMap_cons, point_recv (.inl h9)]; rfl
  · exact fun e' he' => hno e' (mem_point_events he')
  · intro x' hx' hrec
    obtain ⟨B₁, B₂, hB⟩ := List.append_of_mem hx'
    rcases point_split hB with ⟨k', Q₁, Q₂, rfl, -⟩ | ⟨l', Q₁, Q₂, hQ, hl', -, -⟩
    · cases hrec
    obtain ⟨a', hcall', hdec⟩ := lab_recv hl' hrec
    have hM' : M = (P ++ .inl (.api e) :: Q₁) ++ .inr l' :: (Q₂ ++ .inr l :: M₂) := by rw [hM, hQ]; simp
    by_cases haa : a' = a
    · subst haa
      exact h.twice hM' hcall' hcall
    obtain ⟨tr1, s1, m1, g1, g2, g3, g4, g5, g6⟩ := h.point hM' hcall' (by simp)
    have hin : .core (.invoke a' .pop) ∈ tr0 := by
      have : .core (.invoke a' .pop) ∈ Mix.evs (P ++ .inl (.api e) :: Q) := by
        have : .core (.invoke a' .pop) ∈ Mix.evs (P ++ .inl (.api e) :: Q₁) := by rw [g2]; simp [mem_coreOf.1 g5]
        rw [hQ]
        simp at this ⊢
        rcases this with h | h
        · exact .inl h
        · exact .inr (.inl h)
      rw [h2] at this
      exact (List.mem_append.1 this).resolve_right (by simpa using h3 a' .pop)
    have hret : Thingbuf.Returned (coreOf tr0) a' := by
      apply Classical.byContradiction
      intro hn
      have := h1.exec.pop_owner (h1.running (mem_coreOf.2 hin) hn (by simp))
      rw [h7] at this
      injection this with this
      injection this with this
      exact haa this.symm
    obtain ⟨r, hr⟩ := hret
    have hr0 := mem_coreOf.1 hr
    have hrM : .core (.ret a' r) ∈ Mix.evs (P ++ .inl (.api e) :: Q) := by rw [h2]; simp [hr0]
    have hrQ : .core (.ret a' r) ∈ Mix.evs Q₂ := by
      rw [hQ] at hrM
      simp only [Mix.evs_append, Mix.evs_inl, Mix.evs_inr, List.mem_append, List.mem_cons] at hrM
      have g6' : .core (.ret a' r) ∉ Mix.evs (P ++ .inl (.api e) :: Q₁) := fun hx => g6 ⟨r, mem_coreOf.2 hx⟩
      simp only [Mix.evs_append, Mix.evs_inl, List.mem_append, List.mem_cons] at g6'
      rcases hrM with h | h | h | h
      · exact absurd (.inl h) g6'
      · cases h
      · exact absurd (.inr (.inr h)) g6'
      · exact h
    have hdec' : ∃ e, RecvRet e ∧ Decides tr a' e := by
      rcases hdec with ⟨v, rfl⟩ | hdec
      · obtain ⟨l2, op2, k1, k2, k3⟩ := h.before hM hrM
        have := h.one (show .inr (.pop a' v) ∈ M by rw [hM']; simp) (show .inr l2 ∈ M by rw [hM]; exact List.mem_append_left _ k1) hcall' k2
        subst this
        have k3 : r = .popped := k3
        subst k3
        exact h.run.popped_decides (h.sub hM hrM)
      · exact hdec
    obtain ⟨e', he', p, r', q, hd⟩ := hdec'
    obtain ⟨Y₁, Y₂, hY⟩ := List.append_of_mem hrQ
    have htr : tr = (Mix.evs (P ++ .inl (.api e) :: Q₁) ++ Y₁) ++ .core (.ret a' r) :: (Y₂ ++ Mix.evs M₂) := by
      rw [← h.evs, hM, hQ]; simp [hY]
    obtain ⟨-, -, hq⟩ := h.run.ret_split hd htr
    cases Y₂ with
    | nil =>
      rcases h.late _ _ _ hM with hl2 | ⟨e2, t2, hl2⟩ <;> rw [hl2] at hq <;> cases hq
    | cons y Y₂ =>
      injection hq with hq
      subst hq
      exact (hno e' (by rw [hQ]; simp [hY])).2 he'

theorem Mixed.recvDone (h : Mixed c tr s M) {N₁ N₂ : CMarked V W} {e : Api W}
    (hN : M.flatMap (Chan.point tr) = N₁ ++ .inl e :: N₂) (he : RecvRet e) : ∃ A l B, N₁ = A ++ .inr l :: B ∧ l.GivesRecv e ∧
      ∀ e', .inl e' ∈ B → ¬ RecvCall e' ∧ ¬ RecvRet e' := by
  obtain ⟨M₁, M₂, hM, rfl, -⟩ := event_split (by rcases he with ⟨r, rfl⟩ | ⟨r, rfl⟩ <;> simp) hN
  have htr : tr = Mix.evs M₁ ++ .api e :: Mix.evs M₂ := by rw [← h.evs, hM]; simp
  obtain ⟨tr0, s0, a, r, m, h0, h1, h2, h3⟩ := h.run.exec.recv_ret htr he
  have hdec : Decides tr a e := ⟨tr0 ++ m.map .core, r, Mix.evs M₂, by rw [htr, h2]; simp⟩
  have hret : .core (.ret a r) ∈ Mix.evs M₁ := by rw [h2]; simp
  obtain ⟨l, op, h4, h5, h6⟩ := h.before hM hret
  obtain ⟨P, Q, rfl⟩ := List.append_of_mem h4
  have hM' : M = P ++ .inr l :: (Q ++ .inl (.api e) :: M₂) := by rw [hM]; simp
  have hlate := h.late _ _ _ hM'
  -- the pop operation was called in this receive call
  have hlive : ∃ p q, tr0 = p ++ .core (.invoke a .pop) :: q ∧ (NoRx q ∨ ∃ q', q = .api .callTry :: q' ∧ NoRx q') := by
    have hx := h0.rxLive
    cases hp : s0.rx <;> rw [hp] at h1 hx <;> simp [rxCore] at h1 <;> simp only [RxLive] at hx
    case tryPop =>
      obtain ⟨p, q, h7, h8⟩ := hx
      subst h1
      exact ⟨p, _, h7, .inr ⟨q, rfl, h8⟩⟩
    all_goals
      obtain ⟨-, p, q, h7, h8⟩ := hx
      subst h1
      exact ⟨p, q, h7, .inl h8⟩
  obtain ⟨p, q, h7, h8⟩ := hlive
  obtain ⟨hinv, -⟩ := h.lin.during (Mix.core P) l (Mix.core (Q ++ .inl (.api e) :: M₂)) a op (by rw [hM']; simp) h5
  rw [mixCore_events, mem_coreOf] at hinv
  obtain ⟨u, v, huv⟩ := List.append_of_mem hinv
  have ht1 : tr = u ++ .core (.invoke a op) :: (v ++ (Mix.evs Q ++ .api e :: Mix.evs M₂)) := by
    rw [← h.evs, hM']; simp [huv]
  have ht2 : tr = p ++ .core (.invoke a .pop) :: (q ++ (m.map .core ++ (.core (.ret a r) :: .api e :: Mix.evs M₂))) := by
    rw [htr, h2, h7]; simp
  obtain ⟨-, rfl, hvq⟩ := h.run.inv_split ht1 ht2
  have hvq' : v ++ Mix.evs Q = q ++ (m.map .core ++ [.core (.ret a r)]) := by
    have : (v ++ Mix.evs Q) ++ .api e :: Mix.evs M₂ = (q ++ (m.map .core ++ [.core (.ret a r)])) ++ .api e :: Mix.evs M₂ := by
      simpa using hvq
    exact List.append_inj_left' this rfl
  have hnr : NoRx (m.map .core ++ [.core (.ret a r)] : Trace V W) := by intro e he; simp at he
  have hnQ : NoRx (Mix.evs Q) := by
    rcases h8 with h8 | ⟨q', rfl, h8⟩
    · intro e' he'
      exact (h8.append hnr) e' (by rw [← hvq']; exact List.mem_append_right _ he')
    · cases v with
      | nil =>
        exfalso
        simp at hvq'
        rcases hlate with h9 | ⟨e2, t2, h9⟩ <;> rw [Mix.evs_append, hvq'] at h9 <;> cases h9
      | cons y v =>
        have hvq' : v ++ Mix.evs Q = q' ++ (m.map .core ++ [.core (.ret a r)]) := by injection hvq'
        intro e' he'
        exact (h8.append hnr) e' (by rw [← hvq']; exact List.mem_append_right _ he')
  have hx : ∃ x, lab tr l = [x] ∧ x.GivesRecv e := by
    have hpr := h.run.pop_ret (h.sub hM hret) (show .core (.invoke a .pop) ∈ tr by rw [ht2]; simp)
    rcases h3 with ⟨rfl, h3⟩ | ⟨rfl, h3⟩ | ⟨n1, n2, h3⟩ | ⟨n1, n2, h3, -⟩
    · cases l <;> simp [Label.Gives, Label.call] at h5 h6
      subst h5
      exact ⟨_, rfl, h3⟩
    · cases l <;> simp [Label.Gives, Label.call] at h5 h6
      subst h5
      refine ⟨.closed, ?_, h3⟩
      simp only [lab]
      rw [if_pos]
      rcases h3 with rfl | rfl
      · exact .inl hdec
      · exact .inr hdec
    · have hr : r = .empty := (hpr.resolve_left n1).resolve_right n2
      subst hr
      cases l <;> simp [Label.Gives, Label.call] at h5 h6
      subst h5
      refine ⟨.empty, ?_, h3⟩
      simp only [lab]
      rw [if_neg, if_pos]
      · rcases h3 with rfl | rfl
        · exact .inl hdec
        · exact .inr hdec
      · intro hd
        have := h.run.decides_uniq hdec hd
        rcases h3 with rfl | rfl <;> cases this
    · have hr : r = .empty := (hpr.resolve_left n1).resolve_right n2
      subst hr
      cases l <;> simp [Label.Gives, Label.call] at h5 h6
      subst h5
      refine ⟨.gaveUp, ?_, h3⟩
      simp only [lab]
      rw [if_pos]
      rw [← h3]; exact hdec
  obtain ⟨x, hx1, hx2⟩ := hx
  refine ⟨P.flatMap (Chan.point tr), x, Q.flatMap (Chan.point tr), ?_, hx2, fun e' he' => hnQ e' (mem_point_events he')⟩
  rw [List.flatMap_append, List.flatMap_cons]
  simp [Chan.point, hx1]

theorem Mixed.recvValue (h : Mixed c tr s M) {a : OpId} {v : V} (hN : .inr (.recv a v) ∈ M.flatMap (Chan.point tr)) :
    ∃ i, .core (.dequeue a i (some v)) ∈ tr := by
  obtain ⟨N₁, N₂, hN⟩ := List.append_of_mem hN
  rcases point_split hN with ⟨k', M₁, M₂, h1, -⟩ | ⟨l, M₁, M₂, hM, hl, h1, h2⟩
  · cases h1
  · cases l <;> simp only [lab] at hl
    case pop a' v' =>
      cases hl
      obtain ⟨i, hi⟩ := h.lin.popped a v (mixCore_inr.2 (by rw [hM]; simp))
      exact ⟨i, mem_coreOf.1 hi⟩
    all_goals (try split at hl) <;> (try split at hl) <;> cases hl

/-! ### The `Sender`s -/

theorem senders_api (t : Trace V W) : senders ((apiOf t).map .api : Trace V W) = senders t := by
  have key : ∀ (t : Trace V W) (l : List Nat), ((apiOf t).map .api : Trace V W).foldl sendersStep l = t.foldl sendersStep l := by
    intro t
    induction t with
    | nil => intro l; rfl
    | cons e t ih =>
      intro l
      cases e with
      | api e => exact ih _
      | _ => exact ih _
  exact key t [0]

theorem lastDrop_api {t : Trace V W} {pan : Bool} : LastDrop ((apiOf t).map .api : Trace V W) pan ↔ LastDrop t pan := by
  constructor
  · rintro ⟨pre, z, post, h1, h2⟩
    obtain ⟨A, B, h3, rfl, h4⟩ := List.map_eq_append_iff.1 h1
    obtain ⟨e, B', rfl, h5, h6⟩ := List.map_eq_cons_iff.1 h4
    cases h5
    obtain ⟨t1, t2, rfl, h7, h8⟩ := List.filterMap_eq_append_iff.1 (show t.filterMap _ = A ++ .dropTx z pan :: B' from h3)
    obtain ⟨t3, y, t4, rfl, h9, h10, h11⟩ := List.filterMap_eq_cons_iff.1 h8
    have hy : y = .api (.dropTx z pan) := by cases y <;> simp at h10; rw [h10]
    subst hy
    refine ⟨t1 ++ t3, z, t4, by simp, ?_⟩
    rw [← senders_api, apiOf_append, apiOf_append, show apiOf t1 = A from h7, show apiOf t3 = [] from List.filterMap_eq_nil_iff.2 h9]
    simpa using h2
  · rintro ⟨pre, z, post, rfl, h2⟩
    refine ⟨(apiOf pre).map .api, z, (apiOf post).map .api, by rw [apiOf_append, List.map_append]; rfl, ?_⟩
    rw [← senders_api] at h2
    simpa using h2

theorem ctrace (tr : Trace V W) (M : Mix V W) : CMarked.trace (M.flatMap (point tr)) = (apiOf (Mix.evs M)).map .api := by
  rw [CMarked.trace, point_events]

theorem Mixed.gaveUp (h : Mixed c tr s M) {N₁ N₂ : CMarked V W} (hN : M.flatMap (Chan.point tr) = N₁ ++ .inr .gaveUp :: N₂) :
    senders (CMarked.trace N₁) = [] := by
  rcases point_split hN with ⟨k', M₁, M₂, h1, -⟩ | ⟨l, M₁, M₂, hM, hl, rfl, rfl⟩
  · cases h1
  have hl' : ∃ a, l = .empty a ∧ Decides tr a (.retPoll .none) := by
    cases l <;> simp only [lab] at hl
    case empty a =>
      split at hl
      · rename_i hd; exact ⟨a, rfl, hd⟩
      · split at hl <;> cases hl
    all_goals (try split at hl) <;> (try split at hl) <;> cases hl
  obtain ⟨a, rfl, p, r, q, hd⟩ := hl'
  have hd' : tr = (p ++ [.core (.ret a r)]) ++ .api (.retPoll .none) :: q := by rw [hd]; simp
  obtain ⟨tr1, s1, a', r', m1, g0, g1, g2, g3⟩ := h.run.exec.recv_ret hd' (.inl ⟨_, rfl⟩)
  have g4 : a' = a ∧ r' = r := by
    have g2' : p ++ [.core (.ret a r)] = (tr1 ++ m1.map .core) ++ [.core (.ret a' r')] := by rw [g2]; simp
    have := (List.append_inj' g2' rfl).2
    simp at this
    exact ⟨this.1.symm, this.2.symm⟩
  obtain ⟨rfl, rfl⟩ := g4
  have hr : r' = .empty := by
    obtain ⟨l2, op2, k1, k2, k3⟩ := h.before (M₁ := M) (M₂ := []) (by simp) (show .core (.ret a' r') ∈ Mix.evs M by rw [h.evs, hd]; simp)
    have := h.one (show .inr (.empty a') ∈ M by rw [hM]; simp) k1 rfl k2
    subst this
    exact k3
  subst hr
  have hlast : s1.rx = .last a' := by
    simpa [RetOf] using g3
  have hh := g0.lastHist
  rw [hlast] at hh
  obtain ⟨u, o, v, h1, h3⟩ := hh
  obtain ⟨pan, h2⟩ := g0.wait_closed g0.closedTold h1
  obtain ⟨tr0, s0, m, k1, k2, k3, k4, k5, k6⟩ := h.point hM rfl (by simp)
  obtain ⟨v1, v2, rfl⟩ := List.append_of_mem h3
  obtain ⟨x1, x2, hx⟩ := List.append_of_mem (mem_coreOf.1 k5)
  have ht1 : tr = (u ++ .cell (.retWait o .closed) :: v1) ++ .core (.invoke a' .pop) :: (v2 ++ (m1.map .core ++ [.core (.ret a' .empty)]) ++ .api (.retPoll .none) :: q) := by
    rw [hd', g2, h1]; simp
  have ht2 : tr = x1 ++ .core (.invoke a' .pop) :: (x2 ++ m.map .core ++ Mix.evs M₂) := by
    rw [← h.evs, hM]; simp [k2, hx]
  obtain ⟨h4, -, -⟩ := h.run.inv_split ht1 ht2
  have h5 : LastDrop tr0 pan := by
    rw [hx, ← h4]
    have := (h2.mono (.cell (.retWait o .closed) :: v1)).mono (.core (.invoke a' .pop) :: x2)
    exact this
  rw [ctrace, senders_api, k2, senders_append, foldl_id, k1.exec.senders, k1.exec.lastDrop_handles h5]
  intro e he y
  obtain ⟨e, -, rfl⟩ := List.mem_map.1 he
  rfl

theorem Mixed.closeDuring (h : Mixed c tr s M) {N₁ N₂ : CMarked V W} (hN : M.flatMap (Chan.point tr) = N₁ ++ .inr .close :: N₂) :
    (Api.dropRx false ∈ CMarked.events N₁ ∧ Api.rxDropped ∉ CMarked.events N₁) ∨
      (LastDrop (CMarked.trace N₁) false ∧ Api.lastTxDropped ∉ CMarked.events N₁) := by
  rcases point_split hN with ⟨k', M₁, M₂, h1, -⟩ | ⟨l, M₁, M₂, hM, hl, rfl, rfl⟩
  · cases h1
  have hl' : ∃ a b, l = .close a b := by
    cases l <;> simp only [lab] at hl
    case close a b => exact ⟨a, b, rfl⟩
    all_goals (try split at hl) <;> (try split at hl) <;> cases hl
  obtain ⟨a, b, rfl⟩ := hl'
  obtain ⟨tr0, s0, m, k1, k2, k3, k4, k5, k6⟩ := h.point hM rfl (by simp)
  have hev : apiOf (Mix.evs M₁) = apiOf tr0 := by rw [k2]; simp
  rw [ctrace, lastDrop_api, point_events, hev, k2]
  rcases k1.exec.close_owner k4 with h1 | h1
  · left
    have h2 := k1.exec.rxInv.hist
    rw [h1] at h2
    obtain ⟨pan, h3, h4⟩ := h2
    have := k1.core.invoke_unique k5 (mem_coreOf.2 h4)
    cases this
    refine ⟨mem_apiOf.2 h3.1, fun hd => ?_⟩
    have := k1.exec.rxInv.gone (mem_apiOf.1 hd)
    rw [h1] at this; cases this
  · right
    have h2 := k1.exec.clInv.hist
    rw [h1] at h2
    obtain ⟨pan, h3, -, h4⟩ := h2
    have := k1.core.invoke_unique k5 (mem_coreOf.2 h4)
    cases this
    refine ⟨h3.1.mono _, fun hd => ?_⟩
    have := k1.exec.clInv.fin (mem_apiOf.1 hd)
    rw [h1] at this; cases this

theorem Mixed.closeDone (h : Mixed c tr s M) {N₁ N₂ : CMarked V W} {e : Api W} (hN : M.flatMap (Chan.point tr) = N₁ ++ .inl e :: N₂)
    (he : (e = .rxDropped ∧ Api.dropRx false ∈ CMarked.events N₁) ∨ (e = .lastTxDropped ∧ LastDrop (CMarked.trace N₁) false)) :
    .inr .close ∈ N₁ := by
  obtain ⟨M₁, M₂, hM, rfl, -⟩ := event_split (by rcases he with ⟨rfl, -⟩ | ⟨rfl, -⟩ <;> simp) hN
  have htr : tr = Mix.evs M₁ ++ .api e :: Mix.evs M₂ := by rw [← h.evs, hM]; simp
  obtain ⟨-, -, -, s1, -, -, -, h1, -⟩ := h.run.exec.at_api htr (by rcases he with ⟨rfl, -⟩ | ⟨rfl, -⟩ <;> simp)
  have key : ∃ a b, .core (.invoke a (.close false)) ∈ Mix.evs M₁ ∧ .core (.ret a (.closeRet b)) ∈ Mix.evs M₁ := by
    rcases he with ⟨rfl, h2⟩ | ⟨rfl, h2⟩
    · have h3 := h1.rxInv.hist
      rw [h1.rxInv.gone (by simp)] at h3
      obtain ⟨pan, a, b, h4, h5, h6, -⟩ := h3
      rw [point_events, mem_apiOf] at h2
      have := h4.2 false (List.mem_append_left _ h2)
      subst this
      exact ⟨a, b, by simpa using h5, by simpa using h6⟩
    · have h3 := h1.clInv.hist
      rw [h1.clInv.fin (by simp)] at h3
      obtain ⟨pan, a, b, h4, -, h5, h6, -⟩ := h3
      rw [ctrace, lastDrop_api] at h2
      have := h4.2 false (h2.mono _)
      subst this
      exact ⟨a, b, by simpa using h5, by simpa using h6⟩
  obtain ⟨a, b, h2, h3⟩ := key
  obtain ⟨l, op, h4, h5, h6⟩ := h.before hM h3
  obtain ⟨P, Q, rfl⟩ := List.append_of_mem h4
  obtain ⟨hinv, -⟩ := h.lin.during (Mix.core P) l (Mix.core (Q ++ .inl (.api e) :: M₂)) a op (by rw [hM]; simp) h5
  rw [mixCore_events, mem_coreOf] at hinv
  have hop := h.run.core.invoke_unique (mem_coreOf.2 (h.sub hM h2)) (mem_coreOf.2 (h.sub (M₂ := .inr l :: Q ++ .inl (.api e) :: M₂) (by rw [hM]; simp) hinv))
  subst hop
  refine mem_points h4 ?_
  cases l <;> simp [Label.Gives, Label.call] at h5 h6
  simp [lab]

theorem Run.linearizes (h : Run c tr s) : ∃ L, ChanLinearizes c.cap tr L := by
  obtain ⟨M, hM⟩ := h.mixed
  exact ⟨M.flatMap (Chan.point tr), {
    history := by rw [point_events, hM.evs]
    legal := hM.legal
    sendDuring := fun _ _ _ _ => hM.sendDuring
    sendOnce := fun _ _ _ _ _ _ => hM.sendOnce
    sendDone := fun _ _ => hM.sendDone
    sentAt := fun _ _ _ _ => hM.sentAt
    dropped := fun _ _ _ => hM.dropped
    sentValue := fun _ _ => hM.sentValue
    recvDuring := fun _ _ _ => hM.recvDuring
    recvDone := fun _ _ _ => hM.recvDone
    recvValue := fun _ _ => hM.recvValue
    gaveUp := fun _ _ => hM.gaveUp
    closeDuring := fun _ _ => hM.closeDuring
    closeDone := fun _ _ _ => hM.closeDone }⟩

end Thingbuf.Chan
