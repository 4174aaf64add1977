import Verif.QueueHist3

/-!
# What holds at every event of a wait-queue execution

Helper lemmas for `QueueProps`.
-/

namespace Thingbuf.Queue

variable {W : Type} {c : Config W}

/-- What is known of event `e` after the events `pre`. -/
def EvOkM (b : Bool) (c : Config W) (pre : Trace W) (e : Event W) : Prop :=
  match e with
  | .deq o n => (∃ q', queueOf pre = q' ++ [n]) ∧
      (.callNotify o ∈ pre ∧ (∀ o', .closing o' ∉ pre) ∨ .callClose o ∈ pre)
  | .callStart n _ => n ∉ queueOf pre ∧ .free n ∉ pre
  | .callCont n _ => .free n ∉ pre
  | .store _ => queueOf pre = [] ∧ ∀ o', .closing o' ∉ pre
  | .enq n v => n ∉ queueOf pre ∧ .free n ∉ pre ∧ LastStart pre n v true ∧ (∀ o, .retClose o ∉ pre) ∧
      (stored pre = true → (∃ o, .closing o ∈ pre) ∨ (c.debug = false ∧ ∃ o, OverB b pre o))
  | .upd n w => n ∈ queueOf pre ∧ ∃ v u, LastCont pre n v ∧ given pre n = some u ∧
      w = if c.same u v then u else v
  | .wake o n v => ∃ p1 p2, pre = p1 ++ .deq o n :: p2 ∧ given p1 n = some v
  | .retStart n .wait => ∃ p v, pre = p ++ [.enq n v]
  | .retStart n .notified => ∃ p, pre = p ++ [.consume n] ∧ ∀ o, .closing o ∉ p
  | .retStart _ .closed => ∃ o, .closing o ∈ pre
  | .retCont n .wait => n ∈ queueOf pre ∧ ∃ p v, pre = p ++ [.upd n v]
  | .retCont n .notified => n ∉ queueOf pre ∧ ∃ o, takenBy pre n = some o ∧ .callNotify o ∈ pre
  | .retCont n .closed => n ∉ queueOf pre ∧ ∃ o, takenBy pre n = some o ∧ .callClose o ∈ pre
  | .consume _ => stored pre = true
  | .retClose _ => queueOf pre = [] ∧ ∃ o, .closing o ∈ pre
  | .touch t m => (m ∈ queueOf pre ∧ (.free m ∈ pre → .giveUp m ∈ pre)) ∨
      (t = .node m ∧ .free m ∉ pre)
  | .assertFailed t => ∃ o, t = .op o ∧ c.debug = true ∧ OverB b pre o
  | .retNotify o false => .store o ∈ pre ∨ (c.debug = false ∧ OverB b pre o)
  | .free n => .free n ∉ pre
  | .rem n => .free n ∉ pre
  | _ => True

abbrev EvOk (c : Config W) : Trace W → Event W → Prop := EvOkM false c

theorem AllOk.touches {b : Bool} {tr : Trace W} (h : AllOk (EvOkM b c) tr) {t : Tid} {ns : List Nat}
    (hn : ∀ m ∈ ns, EvOkM b c tr (.touch t m)) : AllOk (EvOkM b c) (tr ++ ns.map (.touch t)) := by
  induction ns generalizing tr with
  | nil => simpa using h
  | cons m ns ih =>
    have h1 := ih (tr := tr ++ [.touch t m]) (h.snoc (hn m (by simp))) (fun k hk => by
      have := hn k (by simp [hk])
      simp only [EvOkM, queueOf_append, List.foldl, qstep] at this ⊢
      simpa using this)
    simpa using h1

/-- What is known at the next event, when memory was accessed in between. -/
theorem notFree_of_fam {b : Bool} {tr : Trace W} {s : State W} (h : ExecM b c tr s) {n : Nat}
    (hg : s.pc (.node n) ≠ .gone) (ha : s.pc (.node n) ≠ .abandoned) : Event.free n ∉ tr := by
  have := h.nodeLife n
  unfold NodeLife at this
  split at this <;> simp_all

/-- A freed node that is still in the list was abandoned. -/
theorem ExecM.freed_waiting {b : Bool} {tr : Trace W} {s : State W} (h : ExecM b c tr s) {n : Nat}
    (hq : n ∈ queueOf tr) (hf : .free n ∈ tr) : .giveUp n ∈ tr := by
  have h1 := h.nodeLife n
  have h2 := h.inv.node n
  generalize s.pc (.node n) = p at h1 h2
  unfold NodeLife at h1
  split at h1 <;> simp_all [NodeOk]

theorem ExecM.evOk {b : Bool} {tr : Trace W} {s : State W} (h : ExecM b c tr s) : AllOk (EvOkM b c) tr := by
  induction h with
  | init => exact AllOk.nil
  | @step tr s s' act evs h hs ih =>
    have h' := h.step hs
    obtain ⟨t, p, st, lk, l, bo, rx, rfl, ht, hg⟩ := h.good hs
    clear ht hs
    have hi := h.inv
    cases hg
    case callStart n v l hpc hl hq =>
      exact ih.snoc ⟨hq, notFree_of_fam h (n := n) (by simp [hpc]) (by simp [hpc])⟩
    case callCont n v l hpc hl =>
      exact ih.snoc (notFree_of_fam h (n := n) (by simp [hpc]) (by simp [hpc]))
    case callDropW => exact ih.snoc trivial
    case callNotify => exact ih.snoc trivial
    case callClose => exact ih.snoc trivial
    case callDrop n l hpc hl hq =>
      refine ih.append2 trivial ?_
      simpa [EvOkM] using notFree_of_fam h (n := n) (by simp [hpc]) (by simp [hpc])
    case giveUp n hpc =>
      refine ih.append2 trivial ?_
      simpa [EvOkM] using notFree_of_fam h (n := n) (by simp [hpc]) (by simp [hpc])
    case remFree n hpc hq =>
      exact ih.snoc (notFree_of_fam h (n := n) (by simp [hpc]) (by simp [hpc]))
    case remUnlock n hpc hq =>
      exact ih.snoc (notFree_of_fam h (n := n) (by simp [hpc]) (by simp [hpc]))
    case startConsume n v hpc hst =>
      refine ih.append2 (h.stored_of_waking hst) ⟨tr, rfl, fun o ho => ?_⟩
      have := h.closing_iff.2 ⟨o, ho⟩
      simp [hst] at this
    case loopConsume n v hpc hst =>
      refine ih.append2 (h.stored_of_waking hst) ⟨tr, rfl, fun o ho => ?_⟩
      have := h.closing_iff.2 ⟨o, ho⟩
      simp [hst] at this
    case startClosed n v hpc hst => exact ih.snoc (h.closing_iff.1 hst)
    case loopClosed n v hpc hst => exact ih.snoc (h.closing_iff.1 hst)
    case enq n v ns hpc hq hns =>
      have hloc := hi.loc (.node n)
      have harg := h.argOk n
      rw [hpc] at hloc harg
      simp only [LocalSt] at hloc
      have hf := notFree_of_fam h (n := n) (by simp [hpc]) (by simp [hpc])
      have h1 := AllOk.touches ih (t := .node n) (ns := ns) (fun m hm => by
        rcases hns m hm with rfl | hm
        · exact .inr ⟨rfl, hf⟩
        · exact .inl ⟨hm, h.freed_waiting hm⟩)
      suffices h2 : EvOkM b c (tr ++ ns.map (.touch (.node n))) (.enq n v) by
        have h3 := h1.append2 h2 (show EvOkM b c _ (.retStart n .wait) from ⟨_, v, rfl⟩)
        simpa using h3
      refine ⟨?_, ?_, ?_, ?_, ?_⟩
      · simpa [queueOf_append, foldl_touch] using hq
      · simpa using hf
      · exact harg.append (by simp) (by simp)
      · intro o ho
        simp only [List.mem_append, List.mem_map] at ho
        rcases ho with ho | ⟨_, _, ho⟩
        · have := (h.afterClose ho).2.2 (.node n)
          rw [hpc] at this
          cases this
        · cases ho
      · intro hsd
        rw [stored_append, ← List.append_nil (ns.map _), stored_touch] at hsd
        rcases h.waking_of_stored hsd with h3 | h3 | ⟨h3, o, h4⟩
        · rw [h3] at hloc; simp at hloc
        · obtain ⟨o, ho⟩ := h.closing_iff.1 h3
          exact .inl ⟨o, List.mem_append_left _ ho⟩
        · exact .inr ⟨h3, o, h4.append⟩
    case contNotified n v hpc hst hq =>
      obtain ⟨o, h1, h2, h3⟩ := h.takenBy (by rw [hpc]; rfl) hq
      exact ih.snoc ⟨hq, o, h1, h2 hst⟩
    case contClosed n v hpc hst hq =>
      obtain ⟨o, h1, h2, h3⟩ := h.takenBy (by rw [hpc]; rfl) hq
      exact ih.snoc ⟨hq, o, h1, h3 hst⟩
    case reloadNotified n v hpc hst hq =>
      obtain ⟨o, h1, h2, h3⟩ := h.takenBy (by rw [hpc]; rfl) hq
      exact ih.snoc ⟨hq, o, h1, h2 hst⟩
    case reloadClosed n v hpc hst hq =>
      obtain ⟨o, h1, h2, h3⟩ := h.takenBy (by rw [hpc]; rfl) hq
      exact ih.snoc ⟨hq, o, h1, h3 hst⟩
    case upd n v u hpc hw hq =>
      have harg := h.argOk n
      rw [hpc] at harg
      refine ih.append2 ⟨hq, v, u, harg, ?_, rfl⟩ ?_
      · rw [← h.given hq, hw]
      · exact ⟨by simpa [queueOf_append, qstep] using hq, _, _, rfl⟩
    case rem n ns hpc hns =>
      have hf := notFree_of_fam h (n := n) (by simp [hpc]) (by simp [hpc])
      have h1 := AllOk.touches ih (t := .node n) (ns := ns) (fun m hm => by
        rcases hns m hm with rfl | hm
        · exact .inr ⟨rfl, hf⟩
        · exact .inl ⟨hm, h.freed_waiting hm⟩)
      have h2 := h1.snoc (e := .rem n) (by simpa [EvOkM] using hf)
      simpa using h2
    case nFast o q0 hpc hq hst =>
      have hne : s.st ≠ .closed := hi.notClosed (t := .op o) (by rw [hpc]; rfl)
      refine ih.append2 ⟨?_, fun o' ho' => hne (h.closing_iff.2 ⟨o', ho'⟩)⟩ (.inl (by simp))
      cases hqq : queueOf tr with
      | nil => rfl
      | cons a as =>
        have := hi.full (by simp [hqq])
        rcases hq with h1 | h1 <;> simp_all
    case deq o x v q' ns hpc hq hv hns hst =>
      have h1 := AllOk.touches ih (t := .op o) (ns := ns)
        (fun m hm => .inl ⟨hns m hm, h.freed_waiting (hns m hm)⟩)
      have h2 := h1.snoc (e := .deq o x)
        (show EvOkM b c _ (.deq o x) from ⟨⟨q', by simpa [queueOf_append, foldl_touch] using hq⟩, .inl ?_⟩)
      · simpa using h2
      · refine ⟨List.mem_append_left _ (h.called (by rw [hpc]; rfl)), fun o' ho' => ?_⟩
        have : Event.closing o' ∈ tr := by simpa using ho'
        have := h.closing_iff.2 ⟨o', this⟩
        simp [hst] at this
    case cDeq o x v q' ns hpc hq hv hns hst =>
      have h1 := AllOk.touches ih (t := .op o) (ns := ns)
        (fun m hm => .inl ⟨hns m hm, h.freed_waiting (hns m hm)⟩)
      have h2 := h1.snoc (e := .deq o x)
        (show EvOkM b c _ (.deq o x) from ⟨⟨q', by simpa [queueOf_append, foldl_touch] using hq⟩, .inr ?_⟩)
      · simpa using h2
      · have ho := h.opHist o
        rw [hpc] at ho
        obtain ⟨l, ho⟩ := ho
        refine List.mem_append_left _ ?_
        rw [← mem_opEvs (o := o) rfl, ho]
        simp
    case deqFail o hpc hq hd hst =>
      exact ih.snoc ⟨o, rfl, hd, h.fail_overB hpc hq⟩
    case nUnlockNone o hpc =>
      have h2 := h.opHist o
      rw [hpc] at h2
      exact ih.snoc (.inr ⟨h2.2, h.unlock_overB hpc⟩)
    case nWake o n v hpc =>
      refine ih.append2 (h.holds (.inr (.inr (.inl hpc)))) trivial
    case cWake o n v hpc hst =>
      exact ih.snoc (h.holds (.inr (.inr (.inr hpc))))
    case cSwap => exact ih.snoc trivial
    case cRet o hpc hq hst => exact ih.snoc ⟨hq, h.closing_iff.1 hst⟩
    all_goals simpa using ih
  | stale _ _ _ ih => exact ih

end Thingbuf.Queue
