import Verif.ChanLinSeq
/-
Linearizability of the channel (C59), continued: the points of the send calls.
-/
namespace Thingbuf.Chan

variable {w : Nat} {V W : Type} {c : Config W} {tr : Trace V W} {s : State w V W} {M M₁ M₂ : Mix V W}

/-- Where the points of the channel are from. -/
theorem point_split {N₁ N₂ : CMarked V W} {x : CLabel V} (h : M.flatMap (point tr) = N₁ ++ .inr x :: N₂) :
    (∃ k M₁ M₂, x = .sendClosed k ∧ M = M₁ ++ .inl (.api (.retSend k .closed)) :: M₂ ∧ N₁ = M₁.flatMap (point tr)) ∨
      ∃ l M₁ M₂, M = M₁ ++ .inr l :: M₂ ∧ lab tr l = [x] ∧ N₁ = M₁.flatMap (point tr) ∧ N₂ = M₂.flatMap (point tr) := by
  obtain ⟨M₁, m, M₂, p, q, h1, h2, h3, h4⟩ := flatMap_split h
  obtain ⟨rfl, h5⟩ := point_inr h2
  rw [List.append_nil] at h3
  rcases h5 with ⟨k, rfl, rfl, rfl⟩ | ⟨l, rfl, h6, rfl⟩
  · exact .inl ⟨k, M₁, M₂, rfl, h1, h3⟩
  · exact .inr ⟨l, M₁, M₂, h1, h6, h3, h4⟩

theorem lab_sender {l : Label V} {x : CLabel V} {k : Nat} (h : lab tr l = [x]) (hx : x.sender = some k) :
    ∃ a, (l = .push a ∨ (l = .full a ∧ .api (.retSend k .full) ∈ tr)) ∧ owner tr a = k := by
  cases l <;> simp only [lab] at h
  case push a =>
    cases h
    simp [CLabel.sender] at hx
    exact ⟨a, .inl rfl, hx⟩
  case full a =>
    split at h
    · rename_i hf
      cases h
      simp [CLabel.sender] at hx
      exact ⟨a, .inr ⟨rfl, hx ▸ hf⟩, hx⟩
    · cases h
  all_goals
    (try split at h) <;> (try split at h) <;> cases h <;> cases hx

theorem Mixed.sub (h : Mixed c tr s M) {e : Ev V W} (hM : M = M₁ ++ M₂) (he : e ∈ Mix.evs M₁) : e ∈ tr := by
  rw [← h.evs, hM, Mix.evs_append]
  exact List.mem_append_left _ he

/-- The send call at the point of one of its attempts. -/
theorem Mixed.push_point (h : Mixed c tr s M) {l : Label V} {a : OpId} (hM : M = M₁ ++ .inr l :: M₂) (hl : l.call = some (a, .push)) :
    ∃ (tr0 : Trace V W) (s0 : State w V W) (m : List (Event V)) (att : Att), Run c tr0 s0 ∧ Mix.evs M₁ = tr0 ++ m.map .core ∧
      s0.snd (Chan.owner tr a) = .push a att ∧ .api (.attempt (Chan.owner tr a) a) ∈ tr0 ∧
      OthersFull tr0 (Chan.owner tr a) (some a) := by
  obtain ⟨tr0, s0, m, h1, h2, h3, h4, h5, h6⟩ := h.point hM hl (by simp)
  obtain ⟨k, att, h7, h8⟩ := h1.exec.push_owner h4
  have htr : tr = Mix.evs M₁ ++ Mix.evs M₂ := by rw [← h.evs, hM]; simp
  have h9 : Chan.owner tr a = k := h.run.exec.owner (by rw [htr, h2]; simp [h8])
  subst h9
  have := h1.exec.attInv.att (Chan.owner tr a)
  rw [h7] at this
  exact ⟨tr0, s0, m, att, h1, h2, h7, h8, this.2⟩

theorem ExecM.ret_life (h : Exec c tr s) {k : Nat} {r : SendRes} (hr : .api (.retSend k r) ∈ tr) (hn : ∀ a, r ≠ .ok a) :
    ∃ z wt, Chan.life k (apiOf tr) = [.callSend k z wt, .retSend k r] := by
  have h1 := h.life k
  have h2 : Api.retSend k r ∈ Chan.life k (apiOf tr) := (mem_life rfl).2 hr
  cases hs : s.snd k <;> rw [hs] at h1 <;> simp only [LifeOk] at h1
  case off => rw [h1] at h2; cases h2
  case done =>
    obtain ⟨z, wt, ⟨r', h3, h4⟩ | h4 | ⟨a, h4⟩⟩ := h1 <;> rw [h4] at h2 ⊢ <;> simp at h2
    · exact ⟨z, wt, by rw [h2]⟩
    · exact absurd h2 (hn a)
  case held a | forgotten a =>
    obtain ⟨z, wt, h4⟩ := h1; rw [h4] at h2; simp at h2; exact absurd h2 (hn a)
  case toNotify | notifying =>
    obtain ⟨z, wt, a, h4⟩ := h1; rw [h4] at h2; simp at h2; exact absurd h2 (hn a)
  all_goals obtain ⟨z, wt, h4⟩ := h1; rw [h4] at h2; simp at h2

/-- The attempts of a send call that is over without a `SendRef`. -/
theorem ExecM.over (h : Exec c tr s) {k : Nat} {a : OpId} (ha : .api (.attempt k a) ∈ tr)
    (hs : s.snd k = .done ∨ s.snd k = .dropping) (hn : ∀ a, .api (.retSend k (.ok a)) ∉ tr) :
    .core (.ret a .full) ∈ tr ∨ (.core (.ret a .closed) ∈ tr ∧ .api (.retSend k .closed) ∈ tr) ∨ .api (.retSend k .panicked) ∈ tr := by
  have h1 := h.attInv.att k
  rcases hs with hs | hs <;> rw [hs] at h1
  · obtain ⟨b, h2, h3⟩ := h1
    by_cases hb : some a = b
    · obtain ⟨r, h4, h5, h6, h7⟩ := h3 a hb.symm
      by_cases e1 : r = .pushed
      · exact absurd (h5 e1) (hn a)
      · by_cases e2 : r = .closed
        · exact .inr (.inl ⟨e2 ▸ h4, h6 e2⟩)
        · by_cases e3 : r = .full
          · exact .inl (e3 ▸ h4)
          · exact .inr (.inr (h7 e1 e2 e3))
    · exact .inl (h2 a hb ha)
  · exact .inl (h1 a (by simp) ha)

theorem ExecM.cancel_full (h : Exec c tr s) {k : Nat} {a : OpId} (ha : .api (.attempt k a) ∈ tr) (hc : .api (.cancel k) ∈ tr) :
    .core (.ret a .full) ∈ tr ∧ ∀ r, .api (.retSend k r) ∉ tr := by
  have h1 := h.life k
  have h2 : Api.cancel k ∈ Chan.life k (apiOf tr) := (mem_life rfl).2 hc
  have key : ∃ z wt, (s.snd k = .done ∨ s.snd k = .dropping) ∧ (Chan.life k (apiOf tr) = [.callSend k z wt, .cancel k, .cancelled k] ∨
      Chan.life k (apiOf tr) = [.callSend k z wt, .cancel k]) := by
    cases hs : s.snd k <;> rw [hs] at h1 <;> simp only [LifeOk] at h1
    case off => rw [h1] at h2; cases h2
    case done =>
      obtain ⟨z, wt, ⟨r', h3, h4⟩ | h4 | ⟨a, h4⟩⟩ := h1 <;> rw [h4] at h2 <;> simp at h2
      exact ⟨z, wt, .inl rfl, .inl h4⟩
    case dropping => obtain ⟨z, wt, h4⟩ := h1; exact ⟨z, wt, .inr rfl, .inr h4⟩
    case toNotify | notifying =>
      obtain ⟨z, wt, a, h4⟩ := h1; rw [h4] at h2; simp at h2
    all_goals obtain ⟨z, wt, h4⟩ := h1; rw [h4] at h2; simp at h2
  obtain ⟨z, wt, hs, hl⟩ := key
  have hn : ∀ r, .api (.retSend k r) ∉ tr := by
    intro r hr
    have := (mem_life (k := k) (by rfl)).2 hr
    rcases hl with hl | hl <;> rw [hl] at this <;> simp at this
  refine ⟨?_, hn⟩
  rcases h.over ha hs (fun a => hn _) with h3 | h3 | h3
  · exact h3
  · exact absurd h3.2 (hn _)
  · exact absurd h3 (hn _)

theorem ExecM.timeout_full (h : Exec c tr s) {k : Nat} {a : OpId} (ha : .api (.attempt k a) ∈ tr) (hc : .api (.retSend k .timeout) ∈ tr) :
    .core (.ret a .full) ∈ tr := by
  have h1 := h.life k
  have hu : ∀ r, .api (.retSend k r) ∈ tr → r = .timeout := fun r hr => h1.ret_uniq ((mem_life rfl).2 hr) ((mem_life rfl).2 hc)
  have hs : s.snd k = .done := by
    have h2 : Api.retSend k .timeout ∈ Chan.life k (apiOf tr) := (mem_life rfl).2 hc
    cases hs : s.snd k <;> rw [hs] at h1 <;> simp only [LifeOk] at h1
    case off => rw [h1] at h2; cases h2
    case toNotify | notifying => obtain ⟨z, wt, a, h4⟩ := h1; rw [h4] at h2; simp at h2
    all_goals obtain ⟨z, wt, h4⟩ := h1; rw [h4] at h2; simp at h2
  rcases h.over ha (.inl hs) (fun a ha => by cases hu _ ha) with h3 | h3 | h3
  · exact h3
  · cases hu _ h3.2
  · cases hu _ h3

/-- The point of an attempt that returned `Full`. -/
theorem Mixed.full_label (h : Mixed c tr s M) {l : Label V} {a : OpId} {op : Op} (hl : .inr l ∈ M) (hc : l.call = some (a, op))
    (hr : .core (.ret a .full) ∈ tr) : l = .full a := by
  obtain ⟨l', op', h1, h2, h3⟩ := h.before (M₁ := M) (M₂ := []) (by simp) (by rw [h.evs]; exact hr)
  have := h.one hl h1 hc h2
  subst this
  cases l <;> simp [Label.Gives] at h3
  simp [Label.call] at hc
  rw [hc.1]

theorem Mixed.sendDuring (h : Mixed c tr s M) {N₁ N₂ : CMarked V W} {x : CLabel V} {k : Nat}
    (hN : M.flatMap (Chan.point tr) = N₁ ++ .inr x :: N₂) (hx : x.sender = some k) :
    (∃ z wait, Api.callSend k z wait ∈ CMarked.events N₁) ∧ (∀ r, Api.retSend k r ∉ CMarked.events N₁) ∧
      Api.cancel k ∉ CMarked.events (M.flatMap (Chan.point tr)) ∧
      Api.retSend k .timeout ∉ CMarked.events (M.flatMap (Chan.point tr)) := by
  rw [point_events, h.evs]
  rcases point_split hN with ⟨k', M₁, M₂, rfl, hM, rfl⟩ | ⟨l, M₁, M₂, hM, hl, rfl, rfl⟩
  · cases hx
    rw [point_events]
    have htr : tr = Mix.evs M₁ ++ .api (.retSend k .closed) :: Mix.evs M₂ := by rw [← h.evs, hM]; simp
    obtain ⟨z, wt, hl⟩ := h.run.exec.ret_life (k := k) (r := .closed) (by rw [htr]; simp) (by simp)
    have h2 : life k (apiOf (Mix.evs M₁)) = [.callSend k z wt] := by
      have h1 := hl
      rw [htr, apiOf_append, life_append] at h1
      have : life k (apiOf (.api (.retSend k .closed) :: Mix.evs M₂)) = .retSend k .closed :: life k (apiOf (Mix.evs M₂)) := by
        rw [show apiOf (.api (.retSend k .closed) :: Mix.evs M₂) = .retSend k .closed :: apiOf (Mix.evs M₂) from rfl]
        simp [life, callOf]
      rw [this] at h1
      cases hh : life k (apiOf (Mix.evs M₁)) with
      | nil => rw [hh] at h1; simp at h1
      | cons y l =>
        rw [hh] at h1
        injection h1 with h3 h4
        cases l with
        | nil => rw [h3]
        | cons y' l => have := congrArg List.length h4; simp at this
    refine ⟨⟨z, wt, ?_⟩, ?_, ?_, ?_⟩
    · rw [mem_apiOf, ← mem_life (k := k) (by rfl), h2]; simp
    · intro r hr; rw [mem_apiOf, ← mem_life (k := k) (by rfl), h2] at hr; simp at hr
    · intro hr; rw [mem_apiOf, ← mem_life (k := k) (by rfl), hl] at hr; simp at hr
    · intro hr; rw [mem_apiOf, ← mem_life (k := k) (by rfl), hl] at hr; simp at hr
  · rw [point_events]
    obtain ⟨a, h1, rfl⟩ := lab_sender hl hx
    have hcall : l.call = some (a, .push) := by rcases h1 with rfl | ⟨rfl, -⟩ <;> rfl
    obtain ⟨tr0, s0, m, att, h2, h3, h4, h5, h6⟩ := h.push_point hM hcall
    obtain ⟨z, wt, h7⟩ := by have := h2.exec.life (Chan.owner tr a); rw [h4] at this; exact this
    have h8 : apiOf (Mix.evs M₁) = apiOf tr0 := by rw [h3]; simp
    have htr : tr = Mix.evs M₁ ++ Mix.evs M₂ := by rw [← h.evs, hM]; simp
    rw [h8]
    refine ⟨⟨z, wt, ?_⟩, ?_, ?_, ?_⟩
    · rw [mem_apiOf, ← mem_life (k := Chan.owner tr a) (by rfl), h7]; simp
    · intro r hr; rw [mem_apiOf, ← mem_life (k := Chan.owner tr a) (by rfl), h7] at hr; simp at hr
    · intro hc
      rw [mem_apiOf] at hc
      obtain ⟨h9, h10⟩ := h.run.exec.cancel_full (k := Chan.owner tr a) (a := a) (h.sub hM (by rw [h3]; simp [h5])) hc
      have h11 := h.full_label (by rw [hM]; simp) hcall h9
      subst h11
      rcases h1 with h1 | ⟨-, h1⟩
      · cases h1
      · exact h10 _ h1
    · intro hc
      rw [mem_apiOf] at hc
      have h9 := h.run.exec.timeout_full (k := Chan.owner tr a) (a := a) (h.sub hM (by rw [h3]; simp [h5])) hc
      have h11 := h.full_label (by rw [hM]; simp) hcall h9
      subst h11
      rcases h1 with h1 | ⟨-, h1⟩
      · cases h1
      · cases (h.run.exec.life (Chan.owner tr a)).ret_uniq ((mem_life rfl).2 h1) ((mem_life rfl).2 hc)

/-- An operation has one point, at one place. -/
theorem Mixed.twice (h : Mixed c tr s M) {A B C : Mix V W} {l l' : Label V} {a : OpId} {op op' : Op}
    (hM : M = A ++ .inr l :: (B ++ .inr l' :: C)) (h1 : l.call = some (a, op)) (h2 : l'.call = some (a, op')) : False := by
  have h3 := h.lin.once
  rw [hM] at h3
  simp only [Mix.core_append, Mix.core_inr, labels_append] at h3
  have e : ∀ (l : Label V) (L : Marked V), Marked.labels (.inr l :: L) = l :: Marked.labels L := fun _ _ => rfl
  rw [e, labels_append, e] at h3
  simp [List.filterMap_append, List.filterMap_cons_some h1, List.filterMap_cons_some h2, List.nodup_append] at h3

/-- A send call returned `Full` because its only attempt did. -/
theorem ExecM.full_attempt {m : Bool} (h : ExecM m c tr s) {k : Nat} (hr : .api (.retSend k .full) ∈ tr) :
    ∃ a, .api (.attempt k a) ∈ tr ∧ .core (.ret a .full) ∈ tr := by
  obtain ⟨pre, post, htr⟩ := List.append_of_mem hr
  obtain ⟨tr0, l, s0, s1, h0, rfl, h1, h2, h3⟩ := h.at_api htr (by simp)
  cases h1 with
  | api hm hl hr hs => cases hm
  | core es1 es2 h1 hm hl' hr hs =>
    generalize hes : es1 ++ Api.retSend k .full :: es2 = es at hm
    generalize hret : coreRet _ = ret at hm
    have hmem : Api.retSend k .full ∈ es := by rw [← hes]; simp
    have hev := core_evs h1
    cases hm <;> simp at hmem
    case fullOnly j a i hp =>
      subst hmem
      have hx := hev.ret' _ hret
      rw [actOp_push] at hx
      have h4 := h0.attInv.att k
      rw [hp] at h4
      rw [htr, hl']
      exact ⟨a, by simp [h4.1], by simp [hx]⟩
  | cell es1 es2 h1 hm hl hr hs =>
    generalize hes : es1 ++ Api.retSend k .full :: es2 = es at hm
    have : Api.retSend k .full ∈ es := by rw [← hes]; simp
    cases hm <;> simp at this
  | queue es1 es2 h1 hm hl' hr hs =>
    generalize hes : es1 ++ Api.retSend k .full :: es2 = es at hm
    have hmem : Api.retSend k .full ∈ es := by rw [← hes]; simp
    cases hm <;> simp at hmem

theorem Mixed.sendOnce (h : Mixed c tr s M) {N₁ N₂ N₃ : CMarked V W} {x x' : CLabel V} {k : Nat}
    (hN : M.flatMap (Chan.point tr) = N₁ ++ .inr x :: (N₂ ++ .inr x' :: N₃)) (hx : x.sender = some k) : x'.sender ≠ some k := by
  intro hx'
  have hN' : M.flatMap (Chan.point tr) = (N₁ ++ .inr x :: N₂) ++ .inr x' :: N₃ := by rw [hN]; simp
  have hd := (h.sendDuring hN' hx').2.1
  obtain ⟨P, m', Q, p, q, hM, h2, h3, h4⟩ := flatMap_split hN'
  obtain ⟨rfl, h5⟩ := point_inr h2
  rw [List.append_nil] at h3
  have hdP : ∀ r, .api (.retSend k r) ∉ Mix.evs P := by
    intro r hr
    refine hd r ?_
    rw [h3, point_events, mem_apiOf]
    exact hr
  rcases point_split h3.symm with ⟨k', A, B, rfl, hP, -⟩ | ⟨l, A, B, hP, hl, -, -⟩
  · cases hx
    exact hdP .closed (by rw [hP]; simp)
  · obtain ⟨a, h6, rfl⟩ := lab_sender hl hx
    have hcall : l.call = some (a, .push) := by rcases h6 with rfl | ⟨rfl, -⟩ <;> rfl
    have hMA : M = A ++ .inr l :: (B ++ m' :: Q) := by rw [hM, hP]; simp
    obtain ⟨tr0, s0, m, att, h7, h8, h9, h10, h11⟩ := h.push_point hMA hcall
    have htr : tr = Mix.evs A ++ Mix.evs (B ++ m' :: Q) := by rw [← h.evs, hMA]; simp
    have hatt : .api (.attempt (Chan.owner tr a) a) ∈ tr := h.sub hMA (by rw [h8]; simp [h10])
    have hmem : .inr l ∈ M := by rw [hMA]; simp
    rcases h5 with ⟨k', rfl, rfl, rfl⟩ | ⟨l', rfl, hl', rfl⟩
    · injection hx' with hx'
      subst hx'
      have hret : .api (.retSend (Chan.owner tr a) .closed) ∈ tr := h.sub (M₁ := P ++ [_]) (M₂ := Q) (by rw [hM]; simp; rfl) (by simp)
      obtain ⟨z, wt, hlife⟩ := h.run.exec.ret_life hret (by simp)
      have hno : ∀ r, r ≠ .closed → .api (.retSend (Chan.owner tr a) r) ∉ tr := by
        intro r hr hin
        rw [← mem_life (k := Chan.owner tr a) (by rfl), hlife] at hin
        simp at hin
        exact hr hin
      have hs : s.snd (Chan.owner tr a) = .done := by
        have h12 := h.run.exec.life (Chan.owner tr a)
        rw [hlife] at h12
        cases hs : s.snd (Chan.owner tr a) <;> rw [hs] at h12 <;> simp [LifeOk] at h12
      rcases h.run.exec.over hatt (.inl hs) (fun b => hno _ (by simp)) with h13 | ⟨h13, -⟩ | h13
      · have := h.full_label hmem hcall h13
        subst this
        rcases h6 with h6 | ⟨-, h6⟩
        · cases h6
        · exact hno _ (by simp) h6
      · obtain ⟨l', op', h14, h15, h16⟩ := h.before (M₁ := M) (M₂ := []) (by simp) (by rw [h.evs]; exact h13)
        have := h.one hmem h14 hcall h15
        subst this
        rcases h6 with rfl | ⟨rfl, -⟩ <;> simp [Label.Gives] at h16
      · exact hno _ (by simp) h13
    · obtain ⟨a', h6', hown⟩ := lab_sender hl' hx'
      have hcall' : l'.call = some (a', .push) := by rcases h6' with rfl | ⟨rfl, -⟩ <;> rfl
      by_cases haa : a = a'
      · subst haa
        exact h.twice hMA hcall hcall'
      · obtain ⟨tr1, s1, m1, att', h7', h8', h9', h10', h11'⟩ := h.push_point hM hcall'
        rw [hown] at h9' h10' h11'
        have hev : Mix.evs P = Mix.evs A ++ Mix.evs B := by rw [hP]; simp
        have h12 : .api (.attempt (Chan.owner tr a) a) ∈ tr1 := by
          have : .api (.attempt (Chan.owner tr a) a) ∈ Mix.evs P := by rw [hev, h8]; simp [h10]
          rw [h8'] at this
          simpa using this
        have htr' : tr = Mix.evs P ++ Mix.evs Q := by rw [← h.evs, hM]; simp
        have h13 := h11' a (by simpa using haa) h12
        have h14 := h.full_label hmem hcall (h.sub hM (by rw [h8']; simp [h13]))
        subst h14
        rcases h6 with h6 | ⟨-, h6⟩
        · cases h6
        · obtain ⟨pre, post, hpp⟩ := List.append_of_mem h6
          obtain ⟨⟨z, hz⟩, -⟩ := h.run.ret_full hpp
          obtain ⟨z', hz'⟩ := h.run.exec.attempts _ _ _ hatt (show .api (.attempt (Chan.owner tr a) a') ∈ tr from h.sub hM (by rw [h8']; simp [h10'])) haa
          have hz2 : .api (.callSend (Chan.owner tr a) z false) ∈ tr := by
            have sub : ∀ {x y : Trace V W}, tr = x ++ y → ∀ e, e ∈ x → e ∈ tr := fun hxy e he => hxy ▸ List.mem_append_left _ he
            exact sub hpp _ hz
          have := (h.run.exec.call_unique hz2 hz').2
          cases this

theorem mem_points {x : CLabel V} {l : Label V} (hl : .inr l ∈ M) (hx : x ∈ lab tr l) : .inr x ∈ M.flatMap (point tr) :=
  List.mem_flatMap.2 ⟨_, hl, List.mem_map.2 ⟨x, hx, rfl⟩⟩

theorem Mixed.sendDone (h : Mixed c tr s M) {k : Nat} {r : SendRes} (hr : Api.retSend k r ∈ apiOf tr) (hn : r ≠ .panicked) (hn' : r ≠ .timeout) :
    ∃ l, .inr l ∈ M.flatMap (Chan.point tr) ∧ l.sender = some k ∧ l.GivesSend r := by
  rw [mem_apiOf] at hr
  cases r with
  | panicked => exact absurd rfl hn
  | timeout => exact absurd rfl hn'
  | closed =>
    refine ⟨.sendClosed k, List.mem_flatMap.2 ⟨.inl (.api (.retSend k .closed)), ?_, by simp [Chan.point]⟩, rfl, rfl⟩
    rw [← mem_mixEvs, h.evs]; exact hr
  | ok a =>
    obtain ⟨h1, h2⟩ := h.run.exec.ret_ok hr
    obtain ⟨l, op, h3, h4, h5⟩ := h.before (M₁ := M) (M₂ := []) (by simp) (by rw [h.evs]; exact h2)
    cases l <;> simp [Label.Gives, Label.call] at h4 h5
    obtain ⟨rfl, -⟩ := h4
    refine ⟨.send k, mem_points h3 ?_, rfl, _, rfl⟩
    simp [lab, h.run.exec.owner h1]
  | full =>
    obtain ⟨a, h1, h2⟩ := h.run.exec.full_attempt hr
    obtain ⟨l, op, h3, h4, h5⟩ := h.before (M₁ := M) (M₂ := []) (by simp) (by rw [h.evs]; exact h2)
    cases l <;> simp [Label.Gives, Label.call] at h4 h5
    obtain ⟨rfl, -⟩ := h4
    refine ⟨.full k, mem_points h3 ?_, rfl, rfl⟩
    simp [lab, h.run.exec.owner h1, hr]

end Thingbuf.Chan
