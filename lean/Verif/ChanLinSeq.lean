import Verif.ChanLin
/-
Linearizability of the channel (C59), continued: the sequential channel can do what is marked, and the points of the
send calls.
-/
namespace Thingbuf.Chan

variable {w : Nat} {V W : Type} {c : Config W} {tr : Trace V W} {s : State w V W} {M M₁ M₂ : Mix V W}

/-- The point of an operation is before its return. -/
theorem Mixed.before (h : Mixed c tr s M) {a : OpId} {r : Ret} (hM : M = M₁ ++ M₂) (hr : .core (.ret a r) ∈ Mix.evs M₁) :
    ∃ l op, .inr l ∈ M₁ ∧ l.call = some (a, op) ∧ l.Gives r := by
  have hin : Event.ret a r ∈ coreOf tr := by
    rw [mem_coreOf, ← h.evs, hM, Mix.evs_append]
    exact List.mem_append_left _ hr
  obtain ⟨l, op, h1, h2, h3⟩ := h.lin.complete a r hin
  refine ⟨l, op, ?_, h2, h3⟩
  rw [mixCore_inr, hM] at h1
  refine (List.mem_append.1 h1).resolve_right fun h1 => ?_
  obtain ⟨x, y, rfl⟩ := List.append_of_mem h1
  obtain ⟨-, h4⟩ := h.lin.during (Mix.core (M₁ ++ x)) l (Mix.core y) a op (by rw [hM]; simp) h2
  rw [mixCore_events] at h4
  exact h4 ⟨r, by rw [mem_coreOf]; simp [hr]⟩

/-- An operation has one point. -/
theorem Mixed.one (h : Mixed c tr s M) {l l' : Label V} {a : OpId} {op op' : Op} (hl : .inr l ∈ M) (hl' : .inr l' ∈ M)
    (h1 : l.call = some (a, op)) (h2 : l'.call = some (a, op')) : l = l' := by
  have hnd := h.lin.once
  have key : ∀ (ls : List (Label V)), ((ls.filterMap Label.call).map Prod.fst).Nodup → l ∈ ls → l' ∈ ls → l = l' := by
    intro ls
    induction ls with
    | nil => intro _ hx; cases hx
    | cons x ls ih =>
      intro hn hx hy
      have tl : ((ls.filterMap Label.call).map Prod.fst).Nodup := by
        cases hc : x.call with
        | none => rw [List.filterMap_cons_none hc] at hn; exact hn
        | some y => rw [List.filterMap_cons_some hc] at hn; exact (List.nodup_cons.1 hn).2
      have no : ∀ (z : Label V) (op : Op) (op' : Op), z ∈ ls → z.call = some (a, op) → x.call = some (a, op') → False := by
        intro z op op' hz h3 h4
        rw [List.filterMap_cons_some h4] at hn
        refine (List.nodup_cons.1 hn).1 (List.mem_map.2 ⟨(a, op), List.mem_filterMap.2 ⟨z, hz, h3⟩, rfl⟩)
      rcases List.mem_cons.1 hx with rfl | hx2 <;> rcases List.mem_cons.1 hy with rfl | hy2
      · rfl
      · exact (no _ _ _ hy2 h2 h1).elim
      · exact (no _ _ _ hx2 h1 h2).elim
      · exact ih tl hx2 hy2
  have mem : ∀ {l : Label V}, .inr l ∈ M → l ∈ Marked.labels (Mix.core M) := by
    intro l hl
    exact List.mem_filterMap.2 ⟨.inr l, mixCore_inr.2 hl, rfl⟩
  exact key _ hnd (mem hl) (mem hl')

theorem _root_.Thingbuf.Abs.Steps.closed {cap : Nat} {q q' : Abs V} {ls : List (Label V)} (h : Abs.Steps cap q ls q') :
    (q.closed = true ∨ ∃ l a, l ∈ ls ∧ (l = .pushClosed a ∨ l = .popClosed a ∨ ∃ b, l = .close a b)) → q'.closed = true := by
  induction h with
  | nil =>
    rintro (h | ⟨l, a, h, -⟩)
    · exact h
    · cases h
  | cons hs _ ih =>
    rintro (h | ⟨l, a, h, hl⟩)
    · refine ih (.inl ?_)
      cases hs <;> first | exact h | rfl
    · rcases List.mem_cons.1 h with rfl | h
      · refine ih (.inl ?_)
        rcases hl with rfl | rfl | ⟨b, rfl⟩ <;> cases hs <;> first | assumption | rfl
      · exact ih (.inr ⟨l, a, h, hl⟩)

/-- A send call returns `Closed` only if an operation of the ring buffer found it closed or closed it. -/
theorem ExecM.closed_cause (h : Exec c tr s) {k : Nat} {pre post : Trace V W} (htr : tr = pre ++ .api (.retSend k .closed) :: post) :
    (∃ a, .core (.ret a .closed) ∈ pre) ∨ ∃ a, .core (.ret a (.closeRet true)) ∈ pre := by
  obtain ⟨tr0, l, s0, s1, h0, hl, h1, h2, h3⟩ := h.at_api htr (by simp)
  have hq : ∀ j act q1 evs, Queue.step c.queue s0.queue act = some (q1, evs) → l = evs.map .queue →
      (.retStart j .closed ∈ evs ∨ .retCont j .closed ∈ evs) → ∃ a, .core (.ret a (.closeRet true)) ∈ pre := by
    intro j act q1 evs h1 hl' hev
    have hx : ∀ e, (e = .retStart j .closed ∨ e = .retCont j .closed) → e ∈ evs → ∃ o, .queue (.callClose o) ∈ pre ++ [.api (.retSend k .closed)] := by
      intro e he hm
      obtain ⟨x, y, hxy⟩ := List.append_of_mem (show e ∈ queueOf pre by rw [hl, hl']; simp [hm])
      have hq := (show Queue.Exec c.queue (queueOf pre) s1.queue by simpa using h2.queue)
      have := hq.evOk _ _ _ hxy
      rcases he with rfl | rfl
      · obtain ⟨o, ho⟩ := this
        refine ⟨o, ?_⟩
        rw [← mem_queueOf]
        simp only [queueOf_append]
        exact List.mem_append_left _ (hq.closing_called (by rw [hxy]; simp [ho]))
      · obtain ⟨-, o, -, ho⟩ := this
        refine ⟨o, ?_⟩
        rw [← mem_queueOf]
        simp only [queueOf_append]
        exact List.mem_append_left _ (by rw [hxy]; simp [ho])
    obtain ⟨o, ho⟩ : ∃ o, .queue (.callClose o) ∈ pre ++ [.api (.retSend k .closed)] := hev.elim (hx _ (.inl rfl)) (hx _ (.inr rfl))
    obtain ⟨a, hp⟩ := h2.qclose_after o ho
    exact ⟨a, by simpa using hp⟩
  cases h1 with
  | api hm hl hr hs => cases hm
  | core es1 es2 h1 hm hl' hr hs =>
    generalize hes : es1 ++ Api.retSend k .closed :: es2 = es at hm
    generalize hret : coreRet _ = ret at hm
    have hmem : Api.retSend k .closed ∈ es := by rw [← hes]; simp
    have hev := core_evs h1
    cases hm <;> simp at hmem
    case pushClosed j a att i hp =>
      have hx := hev.ret' _ hret
      refine .inl ⟨actOp (i.act a), ?_⟩
      rw [hl, hl']
      exact List.mem_append_right _ (List.mem_append_left _ (List.mem_map_of_mem hx))
  | cell es1 es2 h1 hm hl hr hs =>
    generalize hes : es1 ++ Api.retSend k .closed :: es2 = es at hm
    have : Api.retSend k .closed ∈ es := by rw [← hes]; simp
    cases hm <;> simp at this
  | @queue act q1 evs t es1 es2 h1 hm hl' hr hs =>
    generalize hes : es1 ++ Api.retSend k .closed :: es2 = es at hm
    have hmem : Api.retSend k .closed ∈ es := by rw [← hes]; simp
    have hev := queue_evs h1
    have hn := h0.nodesOk k
    have hl2 : es1 = [] := by
      cases hm <;> simp at hmem <;> (cases es1 <;> simp_all)
    rw [hl2] at hl'
    refine .inr ?_
    cases hm <;> simp at hmem
    · subst hmem
      rename_i hr hj
      rw [hj] at hn
      exact hq _ _ _ _ h1 (by simpa using hl') (.inl (hev.start' _ _ _ rfl hn hr))
    · subst hmem
      rename_i hr hj
      rw [hj] at hn
      exact hq _ _ _ _ h1 (by simpa using hl') (.inr (hev.cont' _ _ _ rfl hn hr))

/-! ### The sequential channel -/

/-- The channel that a ring buffer stands for. -/
noncomputable def chanOf (tr : Trace V W) (q : Abs V) : CAbs V := ⟨q.items.map fun x => (owner tr x.1, x.2), q.closed⟩

theorem CAbs.Steps.append {cap : Nat} {q q₁ q₂ : CAbs V} {l₁ l₂ : List (CLabel V)} (h₁ : CAbs.Steps cap q l₁ q₁) (h₂ : CAbs.Steps cap q₁ l₂ q₂) :
    CAbs.Steps cap q (l₁ ++ l₂) q₂ := by
  induction h₁ with
  | nil => exact h₂
  | cons hs _ ih => exact .cons hs (ih h₂)

theorem CAbs.Steps.one {cap : Nat} {q q₁ : CAbs V} {l : CLabel V} (h : CAbs.Step cap q l q₁) : CAbs.Steps cap q [l] q₁ := .cons h .nil

theorem lab_step {cap : Nat} {q q₁ : Abs V} {l : Label V} (h : Abs.Step cap q l q₁) :
    CAbs.Steps cap (chanOf tr q) (lab tr l) (chanOf tr q₁) := by
  cases h with
  | push h1 h2 =>
    have := CAbs.Step.send (cap := cap) (q := chanOf tr q) (k := owner tr ‹_›) h1 (by simpa [chanOf] using h2)
    exact .one (by simpa [chanOf] using this)
  | full h1 h2 =>
    simp only [lab]
    split
    · exact .one (.full h1 (by simpa [chanOf] using h2))
    · exact .nil
  | publish => exact .one (by simpa [chanOf] using .sent)
  | pop => exact .one .recv
  | empty =>
    simp only [lab]
    split
    · exact .one .gaveUp
    · split
      · exact .one .empty
      · exact .nil
  | emptyUnpublished =>
    simp only [lab]
    split
    · exact .one .gaveUpUnsent
    · split
      · exact .one .emptyUnsent
      · exact .nil
  | popClosed =>
    simp only [lab]
    split
    · exact .one .closed
    · exact .nil
  | close => exact .one .close
  | _ => exact .nil

theorem labels_inr' (ls : List (CLabel V)) : CMarked.labels (ls.map .inr : CMarked V W) = ls := by
  induction ls with
  | nil => rfl
  | cons x ls ih => exact congrArg (x :: ·) ih

theorem point_labels_api {e : Api W} (he : ∀ k, e ≠ .retSend k .closed) : CMarked.labels (point tr (.inl (.api e))) = [] := by
  cases e <;> try rfl
  rename_i k r
  cases r <;> first | rfl | exact absurd rfl (he k)

theorem Mixed.legal (h : Mixed c tr s M) : ∃ q, CAbs.Steps c.cap .init (CMarked.labels (M.flatMap (Chan.point tr))) q := by
  have key : ∀ (M₂ M₁ : Mix V W) (q q' : Abs V), M = M₁ ++ M₂ → Abs.Steps c.cap .init (Marked.labels (Mix.core M₁)) q →
      Abs.Steps c.cap q (Marked.labels (Mix.core M₂)) q' →
      CAbs.Steps c.cap (chanOf tr q) (CMarked.labels (M₂.flatMap (Chan.point tr))) (chanOf tr q') := by
    intro M₂
    induction M₂ with
    | nil => intro M₁ q q' _ _ h2; cases h2; exact .nil
    | cons x M₂ ih =>
      intro M₁ q q' hM h1 h2
      rw [List.flatMap_cons, CMarked.labels_append]
      have hM' : M = (M₁ ++ [x]) ++ M₂ := by simp [hM]
      rcases x with e | l
      · have hlab : Marked.labels (Mix.core (.inl e :: M₂)) = Marked.labels (Mix.core M₂) := by cases e <;> rfl
        rw [hlab] at h2
        have hlab1 : Marked.labels (Mix.core (M₁ ++ [.inl e])) = Marked.labels (Mix.core M₁) := by
          rw [Mix.core_append, labels_append]
          cases e <;> exact List.append_nil _
        refine CAbs.Steps.append ?_ (ih _ q q' hM' (by rw [hlab1]; exact h1) h2)
        cases e with
        | api e =>
          by_cases he : ∃ k, e = .retSend k .closed
          · obtain ⟨k, rfl⟩ := he
            refine .one (.sendClosed ?_)
            have htr : tr = Mix.evs M₁ ++ .api (.retSend k .closed) :: Mix.evs M₂ := by rw [← h.evs, hM]; simp
            have hc : ∃ l a, l ∈ Marked.labels (Mix.core M₁) ∧ (l = Label.pushClosed a ∨ l = .popClosed a ∨ ∃ b, l = .close a b) := by
              have mem : ∀ {l : Label V}, .inr l ∈ M₁ → l ∈ Marked.labels (Mix.core M₁) := by
                intro l hl
                exact List.mem_filterMap.2 ⟨.inr l, mixCore_inr.2 hl, rfl⟩
              rcases h.run.exec.closed_cause htr with ⟨a, ha⟩ | ⟨a, ha⟩
              · obtain ⟨l, op, h3, h4, h5⟩ := h.before hM ha
                refine ⟨l, a, mem h3, ?_⟩
                cases l <;> simp [Label.Gives, Label.call] at h4 h5 ⊢
                · exact h4.1
                · exact h4.1
              · obtain ⟨l, op, h3, h4, h5⟩ := h.before hM ha
                refine ⟨l, a, mem h3, ?_⟩
                cases l <;> simp [Label.Gives, Label.call] at h4 h5 ⊢
                exact h4.1
            exact h1.closed (.inr hc)
          · rw [point_labels_api (fun k hk => he ⟨k, hk⟩)]
            exact .nil
        | _ => exact .nil
      · have h2 : Abs.Steps c.cap q (l :: Marked.labels (Mix.core M₂)) q' := h2
        cases h2 with
        | cons hs h2 =>
          refine CAbs.Steps.append ?_ (ih (M₁ ++ [.inr l]) _ q' hM' ?_ h2)
          · show CAbs.Steps _ _ (CMarked.labels ((lab tr l).map .inr)) _
            rw [labels_inr']
            exact lab_step hs
          · rw [Mix.core_append, labels_append]
            exact h1.append (.cons hs .nil)
  obtain ⟨q, hq⟩ := h.lin.legal
  exact ⟨_, key M [] .init q rfl .nil hq⟩

end Thingbuf.Chan
