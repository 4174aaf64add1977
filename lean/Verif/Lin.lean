import Verif.LinSpec
import Verif.Work
/-
Linearizability (C58): the proof.
-/
namespace Thingbuf

variable {w cap : Nat} {V : Type} {tr pre post : Trace V} {s : State w V}

/-- The sequential queue that a history of the code stands for. -/
def absOf (tr : Trace V) : Abs V := ⟨((resOps tr).drop (nDeq tr)).map fun a => (a, sent tr a), closedB tr⟩

/-- The effect of an event on the sequential queue. -/
def eff (pre : Trace V) : Event V → List (Label V)
  | .reserve a _ => [.push a]
  | .commit a _ (some v) => [.publish a v]
  | .dequeue a _ (some v) => [.pop a v]
  | .close a => [.close a (!closedB pre)]
  | _ => []

theorem sent_append (t u : Trace V) (a : OpId) : sent (t ++ u) a = (sent t a).or (sent u a) := by
  simp [sent, List.findSome?_append]

theorem sent_none {a : OpId} (h : ¬ Committed tr a) : sent tr a = none := by
  unfold sent
  rw [List.findSome?_eq_none_iff]
  intro e he
  cases e with
  | commit b i v =>
    simp only
    split
    · rename_i hb; subst hb; exact absurd ⟨_, _, he⟩ h
    · rfl
  | _ => rfl

theorem Run.sent_at (h : Run w cap tr s) (hp : pre <+: tr) {a : OpId} {i : Nat} {x : V}
    (hc : Event.commit a i (some x) ∈ pre) : sent pre a = some x := by
  cases hs : sent pre a with
  | none =>
    unfold sent at hs
    rw [List.findSome?_eq_none_iff] at hs
    have := hs _ hc
    simp at this
  | some y =>
    unfold sent at hs
    obtain ⟨e, he, hy⟩ := List.exists_of_findSome?_eq_some hs
    cases e with
    | commit b j v =>
      simp at hy
      obtain ⟨rfl, rfl⟩ := hy
      exact congrArg _ (Option.some.inj (h.commit_unique (hp.subset hc) (hp.subset he)).2).symm
    | _ => simp at hy

theorem closedB_one (e : Event V) : closedB [e] = match e with | .close _ => true | _ => false := by
  cases e <;> rfl

theorem absOf_quiet {e : Event V} (h1 : resOps [e] = []) (h2 : deqOps [e] = []) (h3 : ∀ a, sent [e] a = none)
    (h4 : closedB [e] = false) : absOf (pre ++ [e]) = absOf pre := by
  unfold absOf
  rw [resOps_append, nDeq_append, h1, closedB_append, h4]
  simp only [nDeq, h2, List.append_nil, List.length_nil, Nat.add_zero, Bool.or_false, sent_append, h3, Option.or_none]

/-- Every event has the effect on the sequential queue that it should. -/
theorem Run.eff_steps (h : Run w cap tr s) {e : Event V} (htr : tr = pre ++ e :: post) :
    Abs.Steps cap (absOf pre) (eff pre e) (absOf (pre ++ [e])) := by
  have hok := h.evOk htr
  have hpre : pre <+: tr := ⟨_, htr.symm⟩
  have hb := h.bounds hpre
  cases e with
  | invoke a op =>
    rw [absOf_quiet rfl rfl (fun _ => rfl) rfl]; exact .nil
  | access a i k =>
    rw [absOf_quiet rfl rfl (fun _ => rfl) rfl]; exact .nil
  | release a i v =>
    rw [absOf_quiet rfl rfl (fun _ => rfl) rfl]; exact .nil
  | ret a r =>
    rw [absOf_quiet rfl rfl (fun _ => rfl) rfl]; exact .nil
  | reserve a i =>
    obtain ⟨hp, hnc, -, h1, h2, -⟩ := hok
    have e1 : absOf (pre ++ [.reserve a i]) =
        { absOf pre with items := (absOf pre).items ++ [(a, none)] } := by
      unfold absOf
      have hs : ∀ b, sent (pre ++ [Event.reserve a i]) b = sent pre b := fun b => by
        rw [sent_append]; simp [sent]
      have hd : nDeq (pre ++ [Event.reserve a i]) = nDeq pre := by simp [nDeq, deqOps]
      have hr : resOps (pre ++ [Event.reserve a i]) = resOps pre ++ [a] := by simp [resOps]
      simp only [hs, hd, hr]
      have hle : nDeq pre ≤ (resOps pre).length := h1
      rw [List.drop_append_of_le_length hle]
      simp [closedB, sent_none hp.ncom]
    rw [e1]
    refine .cons (.push ?_ ?_) .nil
    · exact not_closed_iff.2 hnc
    · simp only [absOf, List.length_map, List.length_drop]
      have : nRes pre = (resOps pre).length := rfl
      omega
  | commit a i v =>
    obtain ⟨⟨p, -, hp⟩, -, -, x, rfl⟩ := hok
    have hlt := lt_of_getElem?_some hp.res
    have hnd := hp.nd
    obtain ⟨A, B, hm⟩ : ∃ A B, (resOps pre).drop (nDeq pre) = A ++ a :: B := by
      have h1 : ((resOps pre).drop (nDeq pre)).drop (p - nDeq pre) = a :: (resOps pre).drop (p + 1) := by
        rw [List.drop_drop, show nDeq pre + (p - nDeq pre) = p by omega, List.drop_eq_getElem_cons hlt]
        congr 1
        have := hp.res
        rw [List.getElem?_eq_getElem hlt] at this
        exact Option.some.inj this
      exact ⟨_, _, by rw [← h1, List.take_append_drop]⟩
    have hnod : (resOps pre).Nodup := by
      have := h.nodup_res
      obtain ⟨u, hu⟩ := hpre
      rw [← hu, resOps_append] at this
      exact (List.nodup_append.1 this).1
    have hnot : ∀ b ∈ A ++ B, b ≠ a := by
      have h1 : ((resOps pre).drop (nDeq pre)).Nodup := hnod.sublist (List.drop_sublist _ _)
      rw [hm] at h1
      have h2 := (List.perm_middle.nodup_iff.1 h1)
      rw [List.nodup_cons] at h2
      rintro b hb rfl
      exact h2.1 hb
    have hs : ∀ b, sent (pre ++ [Event.commit a i (some x)]) b = if b = a then some x else sent pre b := fun b => by
      rw [sent_append]
      by_cases hb : b = a
      · rw [hb, sent_none hp.ncom]; simp [sent]
      · simp [sent, hb, Ne.symm hb]
    have e0 : absOf pre = ⟨A.map (fun b => (b, sent pre b)) ++ (a, none) :: B.map fun b => (b, sent pre b),
        closedB pre⟩ := by
      unfold absOf
      rw [hm]
      simp [sent_none hp.ncom]
    have e1 : absOf (pre ++ [.commit a i (some x)]) =
        ⟨A.map (fun b => (b, sent pre b)) ++ (a, some x) :: B.map fun b => (b, sent pre b), closedB pre⟩ := by
      unfold absOf
      have hd : nDeq (pre ++ [Event.commit a i (some x)]) = nDeq pre := by simp [nDeq, deqOps]
      have hr : resOps (pre ++ [Event.commit a i (some x)]) = resOps pre := by simp [resOps]
      simp only [hs, hd, hr]
      rw [hm]
      rw [List.map_append, List.map_cons, if_pos rfl]
      have h1 : ∀ l : List OpId, (∀ b ∈ l, b ≠ a) →
          l.map (fun b => (b, if b = a then some x else sent pre b)) = l.map fun b => (b, sent pre b) := fun l hl => by
        apply List.map_congr_left
        intro b hb
        rw [if_neg (hl b hb)]
      rw [h1 A fun b hb => hnot b (List.mem_append_left _ hb), h1 B fun b hb => hnot b (List.mem_append_right _ hb)]
      simp [closedB]
    rw [e0, e1]
    exact .cons .publish .nil
  | dequeue a i v =>
    obtain ⟨hp, -, hlt, b, x, hb1, rfl, hc⟩ := hok
    have hlt' : nDeq pre < (resOps pre).length := hlt
    have e0 : absOf pre = ⟨(b, some x) :: ((resOps pre).drop (nDeq pre + 1)).map fun c => (c, sent pre c), closedB pre⟩ := by
      unfold absOf
      rw [List.drop_eq_getElem_cons hlt', List.map_cons]
      rw [List.getElem?_eq_getElem hlt'] at hb1
      rw [Option.some.inj hb1, h.sent_at hpre hc]
    have e1 : absOf (pre ++ [.dequeue a i (some x)]) =
        ⟨((resOps pre).drop (nDeq pre + 1)).map fun c => (c, sent pre c), closedB pre⟩ := by
      unfold absOf
      have hd : nDeq (pre ++ [Event.dequeue a i (some x)]) = nDeq pre + 1 := by simp [nDeq, deqOps]
      have hr : resOps (pre ++ [Event.dequeue a i (some x)]) = resOps pre := by simp [resOps]
      have hs : ∀ b, sent (pre ++ [Event.dequeue a i (some x)]) b = sent pre b := fun b => by
        rw [sent_append]; simp [sent]
      simp only [hs, hd, hr]
      simp [closedB]
    rw [e0, e1]
    exact .cons .pop .nil
  | close a =>
    have e1 : absOf (pre ++ [.close a]) = { absOf pre with closed := true } := by
      unfold absOf
      have hd : nDeq (pre ++ [Event.close a]) = nDeq pre := by simp [nDeq, deqOps]
      have hr : resOps (pre ++ [Event.close a]) = resOps pre := by simp [resOps]
      have hs : ∀ b, sent (pre ++ [Event.close a]) b = sent pre b := fun b => by
        rw [sent_append]; simp [sent]
      simp only [hs, hd, hr]
      simp [closedB]
    rw [e1]
    exact .cons (.close (q := absOf pre)) .nil

/-! ### Calls without effect -/

/-- Operations of the sequential queue that do not change it. -/
def Label.isRead : Label V → Bool
  | .full _ | .pushClosed _ | .empty _ | .popClosed _ | .len _ _ | .closePanicking _ => true
  | _ => false

/-- A point for a call without effect. -/
structure ReadOk (cap : Nat) (tr : Trace V) (a : OpId) (k : Nat) (l : Label V) : Prop where
  le : k ≤ tr.length
  call : ∃ op, l.call = some (a, op) ∧ Event.invoke a op ∈ tr.take k
  nret : ¬ Returned (tr.take k) a
  step : Abs.Step cap (absOf (tr.take k)) l (absOf (tr.take k))
  read : l.isRead = true
  gives : ∃ r, Event.ret a r ∈ tr ∧ l.Gives r

theorem items_length (t : Trace V) : (absOf t).items.length = nRes t - nDeq t := by
  simp [absOf, nRes]

theorem items_nil {t : Trace V} (h : nRes t = nDeq t) : (absOf t).items = [] := by
  rw [← List.length_eq_zero_iff, items_length]; omega

theorem Run.first_close (h : Run w cap tr s) (hp : pre <+: tr) (hc : Closed pre) :
    ∃ q, q <+: pre ∧ ¬ Closed q ∧ nRes q = nRes pre ∧ ∀ mid, mid <+: pre → ¬ Closed mid → mid <+: q := by
  have key : ∀ t : Trace V, Closed t → ∃ q a r, t = q ++ .close a :: r ∧ ¬ Closed q := by
    intro t
    induction t with
    | nil => rintro ⟨a, ha⟩; cases ha
    | cons e t ih =>
      intro hc
      cases e with
      | close a => exact ⟨[], a, t, rfl, by rintro ⟨b, hb⟩; cases hb⟩
      | _ =>
        obtain ⟨b, hb⟩ := hc
        obtain ⟨q, a, r, rfl, hq⟩ := ih ⟨b, by simpa using hb⟩
        refine ⟨_ :: q, a, r, rfl, ?_⟩
        rintro ⟨b, hb⟩
        exact hq ⟨b, by simpa using hb⟩
  obtain ⟨q, a, r, rfl, hq⟩ := key pre hc
  have h0 : nRes (q ++ [.close a]) = nRes q := by simp [nRes, resOps]
  have h1 : q ++ [.close a] <+: q ++ .close a :: r := ⟨r, by simp⟩
  refine ⟨q, List.prefix_append _ _, hq, ?_, fun mid hm hmc => ?_⟩
  · have h2 : ¬ nRes (q ++ [.close a]) < nRes tr := fun hlt =>
      h.open_before (h1.trans hp) hlt ⟨a, by simp⟩
    have h3 : nRes (q ++ .close a :: r) ≤ nRes tr := nRes_mono hp
    have h4 : nRes (q ++ [.close a]) ≤ nRes (q ++ .close a :: r) := nRes_mono h1
    omega
  · rcases List.prefix_or_prefix_of_prefix hm h1 with h2 | h2
    · rcases List.prefix_concat_iff.1 h2 with h3 | h3
      · exact absurd ⟨a, by rw [h3]; simp⟩ hmc
      · exact h3
    · exact absurd ⟨a, h2.subset (by simp)⟩ hmc

/-- Every call that returned has a point. -/
theorem Run.point (h : Run w cap tr s) {a : OpId} {r : Ret} (hr : Event.ret a r ∈ tr) :
    (∃ k l, ReadOk cap tr a k l ∧ l.Gives r) ∨
    ((r = .pushed ∨ r = .panicked) ∧ ∃ i, Event.reserve a i ∈ tr) ∨
    (r = .popped ∧ ∃ i v, Event.dequeue a i (some v) ∈ tr) ∨
    (∃ p q, r = .closeRet (!closedB p) ∧ tr = p ++ .close a :: q) := by
  obtain ⟨pre, post, htr⟩ := List.append_of_mem hr
  have hok := h.evOk htr
  have hpre : pre <+: tr := ⟨_, htr.symm⟩
  obtain ⟨hinv, hnret, hok⟩ := hok
  have mk : ∀ (mid : Trace V) (l : Label V) (op : Op), mid <+: pre → l.call = some (a, op) →
      Event.invoke a op ∈ mid → Abs.Step cap (absOf mid) l (absOf mid) → l.isRead = true → l.Gives r →
      ∃ k l, ReadOk cap tr a k l ∧ l.Gives r := by
    intro mid l op hm h1 h2 h3 h4 h5
    have hmt := hm.trans hpre
    have ht : tr.take mid.length = mid := (List.prefix_iff_eq_take.1 hmt).symm
    refine ⟨mid.length, l, ⟨hmt.length_le, ⟨op, h1, by rw [ht]; exact h2⟩, ?_, by rw [ht]; exact h3, h4, r, hr, h5⟩, h5⟩
    rw [ht]
    rintro ⟨r', hr'⟩
    exact hnret ⟨r', hm.subset hr'⟩
  have inv : ∀ {mid : Trace V} {op : Op}, mid <+: pre → Invoked mid a → Event.invoke a op ∈ pre → Event.invoke a op ∈ mid := by
    rintro mid op hm ⟨op', h1⟩ h2
    rw [h.invoke_unique (hpre.subset h2) (hpre.subset (hm.subset h1))]
    exact h1
  cases r with
  | pushed =>
    obtain ⟨i, hi⟩ := mem_resOps.1 hok.1
    exact .inr (.inl ⟨.inl rfl, i, hpre.subset hi⟩)
  | panicked =>
    obtain ⟨i, hi⟩ := mem_resOps.1 hok.1
    exact .inr (.inl ⟨.inr rfl, i, hpre.subset hi⟩)
  | popped =>
    obtain ⟨i, v, hi⟩ := mem_deqOps.1 hok.1
    obtain ⟨x, hx⟩ := Option.ne_none_iff_exists'.1 ((C07_initialised h).1 a i v (hpre.subset hi))
    subst hx
    exact .inr (.inr (.inl ⟨rfl, i, x, hpre.subset hi⟩))
  | closeRet b =>
    rcases hok with ⟨h1, rfl⟩ | ⟨h1, p0, h2, h3⟩
    · exact .inl (mk pre (.closePanicking a) _ (List.prefix_refl _) rfl h1 .closePanicking rfl rfl)
    · refine .inr (.inr (.inr ⟨p0, .ret a (.closeRet b) :: post, ?_, by rw [htr, h2]; simp⟩))
      congr 1
      rw [Bool.eq_iff_iff, h3, Bool.not_eq_true', not_closed_iff]
  | full =>
    obtain ⟨-, -, h1, h2, h3⟩ := hok
    obtain ⟨mid, hm, hmi, hmc⟩ := h3 trivial
    left
    by_cases hc : Closed pre
    · obtain ⟨q, h4, h5, h6, h7⟩ := h.first_close hpre hc
      have h8 := h7 mid hm hmc
      have hiq : Invoked q a := by obtain ⟨op, ho⟩ := hmi; exact ⟨op, h8.subset ho⟩
      have h9 := h.bounds (h4.trans hpre)
      have h10 := nDeq_mono h4
      refine mk q (.full a) _ h4 rfl (inv h4 hiq h1) (.full (not_closed_iff.2 h5) ?_) rfl rfl
      rw [items_length]; omega
    · refine mk pre (.full a) _ (List.prefix_refl _) rfl h1 (.full (not_closed_iff.2 hc) ?_) rfl rfl
      rw [items_length]; omega
  | empty =>
    left
    obtain ⟨h1, mid, hm, hmi, hcase⟩ := C04_empty_truthful h htr
    refine mk mid (.empty a) _ hm rfl (inv hm hmi.1 h1) ?_ rfl rfl
    rcases hcase with ⟨h2, h3⟩ | ⟨b, h2, h3⟩
    · have e : absOf mid = ⟨[], false⟩ := by
        have h4 := items_nil (t := mid) h2
        have h5 : (absOf mid).closed = false := not_closed_iff.2 h3
        cases hq : absOf mid
        rw [hq] at h4 h5
        simp_all
      rw [e]; exact .empty
    · have hlt := lt_of_getElem?_some h2
      have e : absOf mid = ⟨(b, none) :: ((resOps mid).drop (nDeq mid + 1)).map fun c => (c, sent mid c), closedB mid⟩ := by
        unfold absOf
        rw [List.drop_eq_getElem_cons hlt, List.map_cons]
        rw [List.getElem?_eq_getElem hlt] at h2
        rw [Option.some.inj h2, sent_none h3]
      rw [e]; exact .emptyUnpublished
  | closed =>
    left
    obtain ⟨-, -, h1, h2 | ⟨h2, h3⟩⟩ := hok
    · exact mk pre (.pushClosed a) _ (List.prefix_refl _) rfl h2 (.pushClosed (closedB_iff.2 h1)) rfl rfl
    · refine mk pre (.popClosed a) _ (List.prefix_refl _) rfl h2 ?_ rfl rfl
      have e : absOf pre = ⟨[], true⟩ := by
        have h4 := items_nil (t := pre) h3.symm
        have h5 : (absOf pre).closed = true := closedB_iff.2 h1
        cases hq : absOf pre
        rw [hq] at h4 h5
        simp_all
      rw [e]; exact .popClosed
  | len n =>
    left
    obtain ⟨-, -, h1, h2, h3⟩ := hok
    by_cases hc : Closed pre
    · refine mk pre (.len a n) _ (List.prefix_refl _) rfl h1 (.len h2 fun h4 => ?_) rfl rfl
      exact absurd hc (not_closed_iff.1 h4)
    · obtain ⟨mid, hm, hmi, h4⟩ := h3 trivial
      refine mk mid (.len a n) _ hm rfl (inv hm hmi h1) (.len h2 fun h5 => ?_) rfl rfl
      rw [items_length, h4 hc]; omega
  | crash c => exact hok.2.2.elim

/-! ### The history with its points -/

/-- The history `rest`, after `pre`, with the points of the calls without effect as given by `pts` and a point for
every effect just before its event. -/
def build (pts : Nat → List (Label V)) : Trace V → Trace V → Marked V
  | pre, [] => (pts pre.length).map .inr
  | pre, e :: rest => (pts pre.length).map .inr ++ ((eff pre e).map .inr ++ .inl e :: build pts (pre ++ [e]) rest)

theorem events_append (L M : Marked V) : Marked.events (L ++ M) = L.events ++ M.events := by
  simp [Marked.events]

theorem events_inr (ls : List (Label V)) : Marked.events (ls.map .inr : Marked V) = [] := by
  induction ls with
  | nil => rfl
  | cons l ls ih => simpa [Marked.events] using ih

theorem labels_append (L M : Marked V) : Marked.labels (L ++ M) = L.labels ++ M.labels := by
  simp [Marked.labels]

theorem labels_inr (ls : List (Label V)) : Marked.labels (ls.map .inr : Marked V) = ls := by
  induction ls with
  | nil => rfl
  | cons l ls ih => simpa [Marked.labels] using ih

theorem build_events (pts : Nat → List (Label V)) (pre rest : Trace V) : (build pts pre rest).events = rest := by
  induction rest generalizing pre with
  | nil => exact events_inr _
  | cons e rest ih =>
    rw [build, events_append, events_append, events_inr, events_inr]
    simp only [Marked.events, List.nil_append, List.filterMap_cons, Sum.getLeft?]
    exact congrArg _ (ih _)

theorem build_labels (pts : Nat → List (Label V)) (pre : Trace V) (e : Event V) (rest : Trace V) :
    (build pts pre (e :: rest)).labels = pts pre.length ++ (eff pre e ++ (build pts (pre ++ [e]) rest).labels) := by
  rw [build, labels_append, labels_append, labels_inr, labels_inr]
  rfl

theorem Abs.Steps.append {q q₁ q₂ : Abs V} {l₁ l₂ : List (Label V)} (h₁ : Abs.Steps cap q l₁ q₁)
    (h₂ : Abs.Steps cap q₁ l₂ q₂) : Abs.Steps cap q (l₁ ++ l₂) q₂ := by
  induction h₁ with
  | nil => exact h₂
  | cons hs _ ih => exact .cons hs (ih h₂)

theorem Abs.Steps.loop {q : Abs V} {ls : List (Label V)} (h : ∀ l ∈ ls, Abs.Step cap q l q) : Abs.Steps cap q ls q := by
  induction ls with
  | nil => exact .nil
  | cons l ls ih => exact .cons (h l (by simp)) (ih fun l hl => h l (by simp [hl]))

theorem Run.build_legal (h : Run w cap tr s) {pts : Nat → List (Label V)}
    (hp : ∀ pre, pre <+: tr → ∀ l ∈ pts pre.length, Abs.Step cap (absOf pre) l (absOf pre)) {rest : Trace V}
    (htr : tr = pre ++ rest) : Abs.Steps cap (absOf pre) (build pts pre rest).labels (absOf tr) := by
  induction rest generalizing pre with
  | nil =>
    rw [build, labels_inr, htr, List.append_nil]
    exact .loop (hp pre ⟨_, htr.symm⟩)
  | cons e rest ih =>
    rw [build_labels]
    exact .append (.loop (hp pre ⟨_, htr.symm⟩)) (.append (h.eff_steps htr) (ih (by rw [htr]; simp)))

theorem inr_split {ls : List (Label V)} {Y L₁ L₂ : Marked V} {x : Event V ⊕ Label V}
    (h : ls.map .inr ++ Y = L₁ ++ x :: L₂) :
    (∃ ls₁ l ls₂, ls = ls₁ ++ l :: ls₂ ∧ L₁ = ls₁.map .inr ∧ x = .inr l ∧ L₂ = ls₂.map .inr ++ Y) ∨
    ∃ M, L₁ = ls.map .inr ++ M ∧ Y = M ++ x :: L₂ := by
  induction ls generalizing L₁ with
  | nil => exact .inr ⟨L₁, rfl, h⟩
  | cons l ls ih =>
    cases L₁ with
    | nil =>
      simp only [List.map_cons, List.cons_append, List.nil_append, List.cons.injEq] at h
      exact .inl ⟨[], l, ls, rfl, rfl, h.1.symm, h.2.symm⟩
    | cons y L₁ =>
      simp only [List.map_cons, List.cons_append, List.cons.injEq] at h
      rcases ih h.2 with ⟨ls₁, l', ls₂, h1, h2, h3, h4⟩ | ⟨M, h1, h2⟩
      · exact .inl ⟨l :: ls₁, l', ls₂, by rw [h1]; rfl, by rw [h2, ← h.1]; rfl, h3, h4⟩
      · exact .inr ⟨M, by rw [h1, ← h.1]; rfl, h2⟩

theorem eff_one {e : Event V} {ls₁ ls₂ : List (Label V)} {l : Label V} (h : eff pre e = ls₁ ++ l :: ls₂) :
    ls₁ = [] ∧ ls₂ = [] ∧ eff pre e = [l] := by
  have hl : (eff pre e).length ≤ 1 := by
    unfold eff; split <;> simp
  rw [h] at hl
  simp at hl
  have h1 : ls₁ = [] := List.length_eq_zero_iff.1 (by omega)
  have h2 : ls₂ = [] := List.length_eq_zero_iff.1 (by omega)
  subst h1 h2
  exact ⟨rfl, rfl, h⟩

/-- Where a point is. -/
theorem build_label {pts : Nat → List (Label V)} {rest : Trace V} {L₁ L₂ : Marked V} {l : Label V}
    (h : build pts pre rest = L₁ ++ .inr l :: L₂) :
    ∃ q, pre ++ rest = pre ++ L₁.events ++ q ∧ (l ∈ pts (pre ++ L₁.events).length ∨
      ∃ e q' L₃, q = e :: q' ∧ eff (pre ++ L₁.events) e = [l] ∧ L₂ = .inl e :: L₃) := by
  induction rest generalizing pre L₁ with
  | nil =>
    rw [build, ← List.append_nil (List.map _ _)] at h
    rcases inr_split h with ⟨ls₁, l', ls₂, h1, h2, h3, h4⟩ | ⟨M, h1, h2⟩
    · cases h3
      refine ⟨[], by rw [h2, events_inr, List.append_nil, List.append_nil], .inl ?_⟩
      rw [h2, events_inr, List.append_nil, h1]
      simp
    · simp at h2
  | cons e rest ih =>
    rw [build] at h
    rcases inr_split h with ⟨ls₁, l', ls₂, h1, h2, h3, h4⟩ | ⟨M, h1, h2⟩
    · cases h3
      refine ⟨e :: rest, by rw [h2, events_inr, List.append_nil], .inl ?_⟩
      rw [h2, events_inr, List.append_nil, h1]
      simp
    · rcases inr_split h2 with ⟨ls₁, l', ls₂, h3, h4, h5, h6⟩ | ⟨M', h3, h4⟩
      · cases h5
        obtain ⟨h7, h8, h9⟩ := eff_one h3
        have he : L₁.events = [] := by rw [h1, h4, ← List.map_append, events_inr]
        rw [he, List.append_nil]
        exact ⟨e :: rest, rfl, .inr ⟨e, rest, _, rfl, h9, by rw [h6, h8]; rfl⟩⟩
      · cases M' with
        | nil => cases h4
        | cons y M' =>
          simp only [List.cons_append, List.cons.injEq] at h4
          obtain ⟨h5, h6⟩ := h4
          obtain ⟨q, h7, h8⟩ := ih h6
          have he : pre ++ L₁.events = pre ++ [e] ++ Marked.events M' := by
            rw [h1, h3, events_append, events_append, events_inr, events_inr, ← h5]
            simp [Marked.events, Sum.getLeft?]
          rw [he]
          exact ⟨q, by rw [← h7]; simp, h8⟩

/-- What is before an event. -/
theorem build_event {pts : Nat → List (Label V)} {rest : Trace V} {L₁ L₂ : Marked V} {e : Event V}
    (h : build pts pre rest = L₁ ++ .inl e :: L₂) :
    ∃ p q M, pre ++ rest = p ++ e :: q ∧ L₁ = M ++ (eff p e).map .inr := by
  induction rest generalizing pre L₁ with
  | nil =>
    rw [build, ← List.append_nil (List.map _ _)] at h
    rcases inr_split h with ⟨ls₁, l', ls₂, h1, h2, h3, h4⟩ | ⟨M, h1, h2⟩
    · cases h3
    · simp at h2
  | cons e' rest ih =>
    rw [build] at h
    rcases inr_split h with ⟨ls₁, l', ls₂, h1, h2, h3, h4⟩ | ⟨M, h1, h2⟩
    · cases h3
    · rcases inr_split h2 with ⟨ls₁, l', ls₂, h3, h4, h5, h6⟩ | ⟨M', h3, h4⟩
      · cases h5
      · cases M' with
        | nil =>
          simp only [List.nil_append, List.cons.injEq, Sum.inl.injEq] at h4
          obtain ⟨rfl, -⟩ := h4
          exact ⟨pre, rest, (pts pre.length).map .inr, rfl, by rw [h1, h3, List.append_nil]⟩
        | cons y M' =>
          simp only [List.cons_append, List.cons.injEq] at h4
          obtain ⟨h5, h6⟩ := h4
          obtain ⟨p, q, M'', h7, h8⟩ := ih h6
          refine ⟨p, q, (pts pre.length).map .inr ++ ((eff pre e').map .inr ++ y :: M''), by rw [← h7]; simp, ?_⟩
          rw [h1, h3, h8]; simp

theorem build_read {pts : Nat → List (Label V)} {rest : Trace V} {k : Nat} {l : Label V} (hl : l ∈ pts k)
    (h1 : pre.length ≤ k) (h2 : k ≤ pre.length + rest.length) : .inr l ∈ build pts pre rest := by
  induction rest generalizing pre with
  | nil =>
    have : k = pre.length := by simp at h2; omega
    subst this
    simpa [build] using hl
  | cons e rest ih =>
    rw [build]
    by_cases hk : k = pre.length
    · subst hk
      exact List.mem_append_left _ (List.mem_map_of_mem hl)
    · refine List.mem_append_right _ (List.mem_append_right _ (List.mem_cons_of_mem _ (ih ?_ ?_)))
      · simp; omega
      · simp at h2 ⊢; omega

theorem build_eff {pts : Nat → List (Label V)} {rest p q : Trace V} {e : Event V} {l : Label V}
    (hl : l ∈ eff (pre ++ p) e) (h : rest = p ++ e :: q) : .inr l ∈ build pts pre rest := by
  induction p generalizing pre rest with
  | nil =>
    subst h
    rw [List.append_nil] at hl
    rw [List.nil_append, build]
    exact List.mem_append_right _ (List.mem_append_left _ (List.mem_map_of_mem hl))
  | cons e' p ih =>
    subst h
    rw [List.cons_append, build]
    exact List.mem_append_right _ (List.mem_append_right _ (List.mem_cons_of_mem _ (ih (by simpa using hl) rfl)))

/-- The calls whose points are given. -/
def ids (ls : List (Label V)) : List OpId := (ls.filterMap Label.call).map Prod.fst

theorem ids_append (l₁ l₂ : List (Label V)) : ids (l₁ ++ l₂) = ids l₁ ++ ids l₂ := by simp [ids]

/-- The calls without effect from place `k` to place `k + n`. -/
def readIds (pts : Nat → List (Label V)) : Nat → Nat → List OpId
  | k, 0 => ids (pts k)
  | k, n + 1 => ids (pts k) ++ readIds pts (k + 1) n

theorem Run.ids_eff (h : Run w cap tr s) {e : Event V} (htr : tr = pre ++ e :: post) : ids (eff pre e) = claimOps [e] := by
  have hok := h.evOk htr
  cases e with
  | dequeue a i v =>
    obtain ⟨-, -, -, b, x, -, rfl, -⟩ := hok
    rfl
  | commit a i v =>
    obtain ⟨-, -, -, x, rfl⟩ := hok
    rfl
  | _ => rfl

theorem Run.build_ids (h : Run w cap tr s) (pts : Nat → List (Label V)) {rest : Trace V} (htr : tr = pre ++ rest) :
    (ids (build pts pre rest).labels).Perm (readIds pts pre.length rest.length ++ claimOps rest) := by
  induction rest generalizing pre with
  | nil => rw [build, labels_inr]; simp [readIds, claimOps]
  | cons e rest ih =>
    have hi := ih (pre := pre ++ [e]) (by rw [htr]; simp)
    rw [build_labels, ids_append, ids_append, h.ids_eff htr, List.length_cons, readIds, List.append_assoc,
      show e :: rest = [e] ++ rest from rfl, claimOps_append]
    refine List.Perm.append_left _ ?_
    rw [List.length_append, List.length_singleton] at hi
    exact (hi.append_left _).trans (by
      rw [← List.append_assoc, ← List.append_assoc]
      exact List.perm_append_comm.append_right _)

theorem readIds_nodup {pts : Nat → List (Label V)} (h1 : ∀ k, (ids (pts k)).Nodup)
    (h2 : ∀ j k a, a ∈ ids (pts j) → a ∈ ids (pts k) → j = k) (k n : Nat) :
    (readIds pts k n).Nodup ∧ ∀ a ∈ readIds pts k n, ∃ j, k ≤ j ∧ a ∈ ids (pts j) := by
  induction n generalizing k with
  | zero => exact ⟨h1 k, fun a ha => ⟨k, Nat.le_refl _, ha⟩⟩
  | succ n ih =>
    obtain ⟨i1, i2⟩ := ih (k + 1)
    refine ⟨List.nodup_append.2 ⟨h1 k, i1, ?_⟩, fun a ha => ?_⟩
    · rintro a ha b hb rfl
      obtain ⟨j, hj, hj2⟩ := i2 a hb
      have := h2 _ _ a ha hj2
      omega
    · rcases List.mem_append.1 ha with ha | ha
      · exact ⟨k, Nat.le_refl _, ha⟩
      · obtain ⟨j, hj, hj2⟩ := i2 a ha
        exact ⟨j, by omega, hj2⟩

/-- The points of the calls without effect. -/
def ptsOf (tr : Trace V) (pt : OpId → Option (Nat × Label V)) (k : Nat) : List (Label V) :=
  (calls tr).filterMap fun a => (pt a).bind fun x => if x.1 = k then some x.2 else none

theorem mem_ptsOf {pt : OpId → Option (Nat × Label V)} {k : Nat} {l : Label V} :
    l ∈ ptsOf tr pt k ↔ ∃ a ∈ calls tr, pt a = some (k, l) := by
  simp only [ptsOf, List.mem_filterMap]
  constructor
  · rintro ⟨a, ha, h⟩
    refine ⟨a, ha, ?_⟩
    cases hp : pt a with
    | none => rw [hp] at h; cases h
    | some x =>
      rw [hp] at h
      simp only [Option.bind_some] at h
      split at h
      · rename_i hk
        cases h; subst hk; rfl
      · cases h
  · rintro ⟨a, ha, h⟩
    exact ⟨a, ha, by rw [h]; simp⟩

theorem ids_ptsOf {pt : OpId → Option (Nat × Label V)}
    (hpt : ∀ a k l, pt a = some (k, l) → ∃ op, l.call = some (a, op)) (cs : List OpId) (k : Nat) :
    ids (cs.filterMap fun a => (pt a).bind fun x => if x.1 = k then some x.2 else none) =
      cs.filter fun a => ((pt a).map Prod.fst) == some k := by
  induction cs with
  | nil => rfl
  | cons a cs ih =>
    rw [List.filterMap_cons, List.filter_cons]
    cases hp : pt a with
    | none => simpa using ih
    | some x =>
      obtain ⟨k', l⟩ := x
      obtain ⟨op, hc⟩ := hpt a k' l hp
      by_cases hk : k' = k
      · subst hk
        simp only [Option.bind_some, if_true, Option.map_some, BEq.rfl]
        rw [show ∀ ls : List (Label V), ids (l :: ls) = a :: ids ls from fun ls => by simp [ids, hc], ih]
      · simpa [hk] using ih

theorem ReadOk.not_claimed (h : Run w cap tr s) {a : OpId} {k : Nat} {l : Label V} (hr : ReadOk cap tr a k l) :
    a ∉ claimOps tr := by
  intro hc
  obtain ⟨op, hcall, hinv⟩ := hr.call
  have hinv : Event.invoke a op ∈ tr := (List.take_prefix _ _).subset hinv
  obtain ⟨r, hret, hg⟩ := hr.gives
  obtain ⟨pre, post, htr⟩ := List.append_of_mem hret
  obtain ⟨-, hnret, hok⟩ := h.evOk htr
  have after : ∀ e ∈ tr, e ∉ pre → e ≠ .ret a r → ∃ p q, tr = p ++ e :: q ∧ Returned p a := by
    intro e he h1 h2
    rw [htr] at he
    rcases List.mem_append.1 he with he | he
    · exact absurd he h1
    · rcases List.mem_cons.1 he with he | he
      · exact absurd he h2
      · obtain ⟨m, n, rfl⟩ := List.append_of_mem he
        exact ⟨pre ++ .ret a r :: m, n, by rw [htr]; simp, r, by simp⟩
  have hcl : (∃ i, Event.reserve a i ∈ tr) ∨ (∃ i v, Event.dequeue a i v ∈ tr) ∨ Event.close a ∈ tr := by
    simp only [claimOps, List.mem_filterMap] at hc
    obtain ⟨e, he, hx⟩ := hc
    cases e <;> simp at hx <;> subst hx
    · exact .inl ⟨_, he⟩
    · exact .inr (.inl ⟨_, _, he⟩)
    · exact .inr (.inr he)
  have close : Event.close a ∈ tr → op = .close false := by
    intro hx
    obtain ⟨p, q, hpq⟩ := List.append_of_mem hx
    have := h.evOk hpq
    exact h.invoke_unique hinv (by rw [hpq]; exact List.mem_append_left _ this.1)
  have reserve : ∀ i, Event.reserve a i ∈ tr → op = .push := by
    intro i hx
    obtain ⟨p, q, hpq⟩ := List.append_of_mem hx
    exact h.invoke_unique hinv (by rw [hpq]; exact List.mem_append_left _ (h.evOk hpq).1.inv)
  have dequeue : ∀ i v, Event.dequeue a i v ∈ tr → op = .pop := by
    intro i v hx
    obtain ⟨p, q, hpq⟩ := List.append_of_mem hx
    exact h.invoke_unique hinv (by rw [hpq]; exact List.mem_append_left _ (h.evOk hpq).1.inv)
  have fin : a ∉ resOps pre → a ∉ deqOps pre → op ≠ .close false → False := by
    intro h1 h2 h3
    rcases hcl with ⟨i, hx⟩ | ⟨i, v, hx⟩ | hx
    · obtain ⟨p, q, h4, h5⟩ := after _ hx (fun h => h1 (mem_resOps.2 ⟨i, h⟩)) (by simp)
      exact (h.evOk h4).1.nret h5
    · obtain ⟨p, q, h4, h5⟩ := after _ hx (fun h => h2 (mem_deqOps.2 ⟨i, v, h⟩)) (by simp)
      exact (h.evOk h4).1.nret h5
    · exact h3 (close hx)
  have hread := hr.read
  cases l with
  | full b => cases hcall; subst hg; exact fin hok.1 hok.2.1 (by simp)
  | pushClosed b => cases hcall; subst hg; exact fin hok.1 hok.2.1 (by simp)
  | empty b => cases hcall; subst hg; exact fin hok.1 hok.2.1 (by simp)
  | popClosed b => cases hcall; subst hg; exact fin hok.1 hok.2.1 (by simp)
  | len b n => cases hcall; subst hg; exact fin hok.1 hok.2.1 (by simp)
  | closePanicking b =>
    cases hcall
    rcases hcl with ⟨i, hx⟩ | ⟨i, v, hx⟩ | hx
    · cases reserve i hx
    · cases dequeue i v hx
    · cases close hx
  | push b => cases hread
  | pop b v => cases hread
  | publish b v => cases hread
  | close b c => cases hread

theorem Run.calls_nodup (h : Run w cap tr s) (hp : pre <+: tr) : (calls pre).Nodup := by
  have key : ∀ n, ∀ pre : Trace V, pre.length = n → pre <+: tr → (calls pre).Nodup := by
    intro n
    induction n with
    | zero => intro pre hl _; rw [List.length_eq_zero_iff.1 hl]; exact List.nodup_nil
    | succ n ih =>
      intro pre hl hp
      obtain ⟨p, e, rfl⟩ : ∃ p e, pre = p ++ [e] := by
        refine ⟨pre.dropLast, pre.getLast (by rintro rfl; simp at hl), ?_⟩
        exact (List.dropLast_concat_getLast _).symm
      have hpp : p <+: tr := (List.prefix_append _ _).trans hp
      have hn := ih p (by simpa using hl) hpp
      obtain ⟨q, hq⟩ := hp
      have hok := h.evOk (pre := p) (e := e) (post := q) (by rw [← hq]; simp)
      have hca : calls (p ++ [e]) = calls p ++ calls [e] := by simp [calls]
      rw [hca]
      cases e with
      | invoke a op =>
        refine List.nodup_append.2 ⟨hn, by simp [calls], ?_⟩
        rintro b hb c hc rfl
        simp [calls] at hc
        subst hc
        exact hok.1 (mem_calls.1 hb)
      | _ => simpa [calls] using hn
  exact key _ pre rfl hp

theorem Run.linearizes (h : Run w cap tr s) : ∃ L, Linearizes cap tr L := by
  classical
  let pt : OpId → Option (Nat × Label V) := fun a =>
    if hx : ∃ k l, ReadOk cap tr a k l then some (hx.choose, hx.choose_spec.choose) else none
  have pt_ok : ∀ a k l, pt a = some (k, l) → ReadOk cap tr a k l := by
    intro a k l hp
    simp only [pt] at hp
    split at hp
    · rename_i hx
      cases hp
      exact hx.choose_spec.choose_spec
    · cases hp
  have pt_some : ∀ a, (∃ k l, ReadOk cap tr a k l) → ∃ k l, pt a = some (k, l) := by
    intro a hx
    exact ⟨_, _, dif_pos hx⟩
  have hcall : ∀ a k l, pt a = some (k, l) → ∃ op, l.call = some (a, op) :=
    fun a k l hp => (pt_ok a k l hp).call.imp fun _ h => h.1
  have take : ∀ {p q : Trace V}, tr = p ++ q → tr.take p.length = p := by
    rintro p q h; rw [h]; simp
  have hids : ∀ k, ids (ptsOf tr pt k) = (calls tr).filter fun a => ((pt a).map Prod.fst) == some k :=
    ids_ptsOf hcall (calls tr)
  have mem_ids : ∀ k a, a ∈ ids (ptsOf tr pt k) → ∃ l, pt a = some (k, l) := by
    intro k a ha
    rw [hids, List.mem_filter] at ha
    obtain ⟨-, ha⟩ := ha
    cases hp : pt a with
    | none => rw [hp] at ha; simp at ha
    | some x =>
      rw [hp] at ha
      simp at ha
      subst ha
      exact ⟨x.2, rfl⟩
  -- what a point is the point of
  have pos : ∀ L₁ l L₂, build (ptsOf tr pt) [] tr = L₁ ++ .inr l :: L₂ →
      ∃ q, tr = Marked.events L₁ ++ q ∧
        ((∃ a, ReadOk cap tr a (Marked.events L₁).length l) ∨
          ∃ e q' L₃, q = e :: q' ∧ eff (Marked.events L₁) e = [l] ∧ L₂ = .inl e :: L₃) := by
    intro L₁ l L₂ hL
    obtain ⟨q, h1, h2⟩ := build_label hL
    simp only [List.nil_append] at h1 h2
    refine ⟨q, h1, h2.imp (fun hm => ?_) id⟩
    obtain ⟨a, -, hp⟩ := mem_ptsOf.1 hm
    exact ⟨a, pt_ok _ _ _ hp⟩
  refine ⟨build (ptsOf tr pt) [] tr, ⟨build_events _ _ _, ⟨absOf tr, ?_⟩, ?_, ?_, ?_, ?_, ?_, ?_⟩⟩
  · -- legal
    refine h.build_legal (pre := []) (fun p hp l hl => ?_) rfl
    obtain ⟨a, -, hpt⟩ := mem_ptsOf.1 hl
    have := (pt_ok _ _ _ hpt).step
    obtain ⟨q, hq⟩ := hp
    rwa [take hq.symm] at this
  · -- during
    intro L₁ l L₂ a op hL hc
    obtain ⟨q, hq, ⟨b, hb⟩ | ⟨e, q', L₃, rfl, he, -⟩⟩ := pos L₁ l L₂ hL
    · obtain ⟨op', h1, h2⟩ := hb.call
      have h3 := hb.nret
      rw [take hq] at h2 h3
      rw [hc] at h1
      cases h1
      exact ⟨h2, h3⟩
    · have hok := h.evOk hq
      cases e with
      | reserve b i => cases he; cases hc; exact ⟨hok.1.inv, hok.1.nret⟩
      | dequeue b i v =>
        obtain ⟨hp, -, -, -, x, -, rfl, -⟩ := hok
        cases he; cases hc; exact ⟨hp.inv, hp.nret⟩
      | commit b i v =>
        obtain ⟨-, -, -, x, rfl⟩ := hok
        cases he; cases hc
      | close b => cases he; cases hc; exact hok
      | _ => cases he
  · -- once
    have hperm := h.build_ids (ptsOf tr pt) (pre := []) (rest := tr) rfl
    refine hperm.nodup_iff.2 (List.nodup_append.2 ?_)
    obtain ⟨h1, h2⟩ := readIds_nodup (pts := ptsOf tr pt)
      (fun k => by rw [hids]; exact (h.calls_nodup (List.prefix_refl _)).filter _)
      (fun j k a hj hk => by
        obtain ⟨l, hl⟩ := mem_ids _ _ hj
        obtain ⟨l', hl'⟩ := mem_ids _ _ hk
        rw [hl] at hl'
        cases hl'; rfl) ([] : Trace V).length tr.length
    refine ⟨h1, h.exec.claimOps.1, ?_⟩
    rintro a ha b hb rfl
    obtain ⟨j, -, hj⟩ := h2 a ha
    obtain ⟨l, hl⟩ := mem_ids _ _ hj
    exact (pt_ok _ _ _ hl).not_claimed h hb
  · -- complete
    intro a r hr
    rcases h.point hr with ⟨k, l, h1, h2⟩ | ⟨h1, i, h2⟩ | ⟨h1, i, v, h2⟩ | ⟨p, q, h1, h2⟩
    · obtain ⟨k', l', hp⟩ := pt_some a ⟨k, l, h1⟩
      have hok := pt_ok _ _ _ hp
      obtain ⟨op, hc, hinv⟩ := hok.call
      obtain ⟨r', hr', hg⟩ := hok.gives
      refine ⟨l', op, build_read (mem_ptsOf.2 ⟨a, mem_calls.2 ⟨op, (List.take_prefix _ _).subset hinv⟩, hp⟩) (Nat.zero_le _)
        (by simpa using hok.le), hc, ?_⟩
      rw [h.ret_unique hr hr']
      exact hg
    · obtain ⟨p, q, hpq⟩ := List.append_of_mem h2
      exact ⟨.push a, .push, build_eff (p := p) (q := q) (e := .reserve a i) (by simp [eff]) hpq, rfl, h1⟩
    · obtain ⟨p, q, hpq⟩ := List.append_of_mem h2
      exact ⟨.pop a v, .pop, build_eff (p := p) (q := q) (e := .dequeue a i (some v)) (by simp [eff]) hpq, rfl, h1⟩
    · exact ⟨.close a (!closedB p), .close false, build_eff (p := p) (q := q) (e := .close a) (by simp [eff]) h2, rfl, h1⟩
  · -- popped
    intro a v hm
    obtain ⟨L₁, L₂, hL⟩ := List.append_of_mem hm
    obtain ⟨q, hq, ⟨b, hb⟩ | ⟨e, q', L₃, rfl, he, -⟩⟩ := pos _ _ _ hL
    · cases hb.read
    · have hmem : e ∈ tr := by rw [hq]; simp
      cases e with
      | dequeue b i x =>
        cases x with
        | none => cases he
        | some x => cases he; exact ⟨i, hmem⟩
      | commit b i x => cases x <;> cases he
      | _ => cases he
  · -- publish
    intro L₁ a v L₂ hL
    obtain ⟨q, hq, ⟨b, hb⟩ | ⟨e, q', L₃, rfl, he, hL₂⟩⟩ := pos _ _ _ hL
    · cases hb.read
    · cases e with
      | dequeue b i x => cases x <;> cases he
      | commit b i x =>
        cases x with
        | none => cases he
        | some x => cases he; exact ⟨i, L₃, hL₂⟩
      | _ => cases he
  · -- published
    intro L₁ a i v L₂ hL
    obtain ⟨p, q, M, h1, h2⟩ := build_event hL
    obtain ⟨-, -, -, x, rfl⟩ := h.evOk h1
    exact ⟨M, x, rfl, h2⟩

end Thingbuf
