import Verif.ChanFineRun
import Verif.QueueFineTrace

/-!
# What does not depend on the accesses to the memory of wait nodes
-/

namespace Thingbuf.Chan

variable {w : Nat} {V W : Type} {c : Config W}

/-- Is this an access to the memory of a wait node? -/
def Ev.isTouch : Ev V W → Bool
  | .queue (.touch _ _) => true
  | _ => false

theorem quiet_eq (tr : Trace V W) : quiet tr = tr.filter fun e => !e.isTouch := by
  unfold quiet
  congr 1
  funext e
  rcases e with e | e | e | e <;> try rfl
  cases e <;> rfl

theorem mem_quiet {tr : Trace V W} {e : Ev V W} (he : e.isTouch = false) : e ∈ quiet tr ↔ e ∈ tr := by
  simp [quiet_eq, he]

theorem mem_of_quiet {tr tr' : Trace V W} (h : quiet tr' = quiet tr) {e : Ev V W} (he : e.isTouch = false) : e ∈ tr' ↔ e ∈ tr := by
  rw [← mem_quiet he, h, mem_quiet he]

theorem quiet_cons {e : Ev V W} (he : e.isTouch = false) (l : Trace V W) : quiet (e :: l) = e :: quiet l := by
  simp [quiet_eq, he]

/-- A trace can be split where a trace that differs from it in accesses to memory only can be split. -/
theorem quiet_split {tr' pre post : Trace V W} {e : Ev V W} (he : e.isTouch = false)
    (h : quiet tr' = quiet (pre ++ e :: post)) :
    ∃ pre' post', tr' = pre' ++ e :: post' ∧ quiet pre' = quiet pre ∧ quiet post' = quiet post := by
  rw [quiet_append, quiet_cons he, quiet_eq tr', List.filter_eq_append_iff] at h
  obtain ⟨l1, l2, h1, h2, h3⟩ := h
  obtain ⟨l3, l4, h4, h5, h6, h7⟩ := List.filter_eq_cons_iff.1 h3
  refine ⟨l1 ++ l3, l4, by rw [h1, h4]; simp, ?_, by rw [quiet_eq, h7]⟩
  rw [quiet_append, quiet_eq l1, h2, quiet_eq l3]
  have : l3.filter (fun e => !e.isTouch) = [] := by
    rw [List.filter_eq_nil_iff]
    exact h5
  rw [this, List.append_nil]

theorem filterMap_quiet {α : Type} (g : Ev V W → Option α) (hg : ∀ t n, g (.queue (.touch t n)) = none) (tr : Trace V W) :
    (quiet tr).filterMap g = tr.filterMap g := by
  induction tr with
  | nil => rfl
  | cons e l ih =>
    by_cases he : e.isTouch = true
    · obtain ⟨t, n, rfl⟩ : ∃ t n, e = .queue (.touch t n) := by
        rcases e with e | e | e | e <;> try cases he
        cases e <;> first | exact ⟨_, _, rfl⟩ | cases he
      rw [List.filterMap_cons, hg]
      exact ih
    · rw [quiet_cons (by simpa using he), List.filterMap_cons, List.filterMap_cons, ih]

theorem foldl_quiet {α : Type} (g : α → Ev V W → α) (hg : ∀ a t n, g a (.queue (.touch t n)) = a) (tr : Trace V W) (a : α) :
    (quiet tr).foldl g a = tr.foldl g a := by
  induction tr generalizing a with
  | nil => rfl
  | cons e l ih =>
    by_cases he : e.isTouch = true
    · obtain ⟨t, n, rfl⟩ : ∃ t n, e = .queue (.touch t n) := by
        rcases e with e | e | e | e <;> try cases he
        cases e <;> first | exact ⟨_, _, rfl⟩ | cases he
      rw [List.foldl_cons, hg]
      exact ih a
    · rw [quiet_cons (by simpa using he), List.foldl_cons, List.foldl_cons, ih]

section
variable {tr tr' : Trace V W}

theorem coreOf_congr (h : quiet tr' = quiet tr) : coreOf tr' = coreOf tr := by
  unfold coreOf
  rw [← filterMap_quiet _ (fun _ _ => rfl) tr', h, filterMap_quiet _ (fun _ _ => rfl) tr]

theorem cellOf_congr (h : quiet tr' = quiet tr) : cellOf tr' = cellOf tr := by
  unfold cellOf
  rw [← filterMap_quiet _ (fun _ _ => rfl) tr', h, filterMap_quiet _ (fun _ _ => rfl) tr]

theorem apiOf_congr (h : quiet tr' = quiet tr) : apiOf tr' = apiOf tr := by
  unfold apiOf
  rw [← filterMap_quiet _ (fun _ _ => rfl) tr', h, filterMap_quiet _ (fun _ _ => rfl) tr]

theorem received_congr (h : quiet tr' = quiet tr) : received tr' = received tr := by
  unfold received
  rw [← filterMap_quiet _ (fun _ _ => rfl) tr', h, filterMap_quiet _ (fun _ _ => rfl) tr]

theorem senders_congr (h : quiet tr' = quiet tr) : senders tr' = senders tr := by
  unfold senders
  rw [← foldl_quiet _ (fun _ _ _ => rfl) tr', h, foldl_quiet _ (fun _ _ _ => rfl) tr]

theorem queueOf_quiet (tr : Trace V W) : queueOf (quiet tr) = Queue.quiet (queueOf tr) := by
  induction tr with
  | nil => rfl
  | cons e l ih =>
    rcases e with e | e | e | e
    · exact ih
    · exact ih
    · cases e <;> first
        | exact ih
        | exact congrArg (List.cons _) ih
    · exact ih

theorem queueOf_congr (h : quiet tr' = quiet tr) : Queue.quiet (queueOf tr') = Queue.quiet (queueOf tr) := by
  rw [← queueOf_quiet, h, queueOf_quiet]

theorem SendEnding.congr {k : Nat} (h : quiet tr' = quiet tr) (hs : SendEnding tr' k) : SendEnding tr k :=
  ⟨(mem_of_quiet h rfl).1 hs.1, fun hm => hs.2 ((mem_of_quiet h rfl).2 hm)⟩

theorem RecvEnding.congr {a : OpId} (h : quiet tr' = quiet tr) (hs : RecvEnding tr' a) : RecvEnding tr a :=
  ⟨(mem_of_quiet h rfl).1 hs.1, fun hm => hs.2 ((mem_of_quiet h rfl).2 hm)⟩

theorem LastTxEnding.congr (h : quiet tr' = quiet tr) (hs : LastTxEnding tr') : LastTxEnding tr :=
  ⟨by rw [← senders_congr h]; exact hs.1, fun hm => hs.2 ((mem_of_quiet h rfl).2 hm)⟩

theorem OldestSent.congr (h : quiet tr' = quiet tr) (hs : OldestSent tr') : OldestSent tr := by
  unfold OldestSent at hs ⊢
  rw [← coreOf_congr h]
  exact hs

theorem NoLoss.congr (h : quiet tr' = quiet tr) (hs : NoLoss tr') : NoLoss tr :=
  fun k => ⟨fun hm => (hs k).1 ((mem_of_quiet h rfl).2 hm), fun hm => (hs k).2 ((mem_of_quiet h rfl).2 hm)⟩

theorem LastDrop.congr {pan : Bool} (h : quiet tr' = quiet tr) (hs : LastDrop tr' pan) : LastDrop tr pan := by
  obtain ⟨pre, x, post, rfl, h2⟩ := hs
  obtain ⟨pre', post', rfl, h3, h4⟩ := quiet_split (e := .api (.dropTx x pan)) rfl h.symm
  exact ⟨pre', x, post', rfl, by rw [senders_congr (tr := pre ++ [.api (.dropTx x pan)]) (by rw [quiet_append, quiet_append, h3])]; exact h2⟩

theorem Received.congr {a : OpId} (h : quiet tr' = quiet tr) (hs : Received tr' a) : Received tr a := by
  obtain ⟨i, b, x, slot, h1, h2, h3, h4⟩ := hs
  exact ⟨i, b, x, slot, by rw [← coreOf_congr h]; exact h1, by rw [← received_congr h]; exact h2, by rw [← coreOf_congr h]; exact h3,
    (mem_of_quiet h rfl).1 h4⟩

theorem Asleep.congr {k : Nat} (h : quiet tr' = quiet tr) (hs : Asleep tr' k) : Asleep tr k := by
  obtain ⟨pre, post, rfl, h1, h2, h3⟩ := hs
  obtain ⟨pre', post', rfl, h4, h5⟩ := quiet_split (e := .api (.sleep k)) rfl h.symm
  exact ⟨pre', post', rfl, fun o v hm => h1 o v ((mem_of_quiet h5 rfl).1 hm), fun v hm => h2 v ((mem_of_quiet h5 rfl).1 hm),
    fun hm => h3.1 ((mem_of_quiet h5 rfl).1 hm), fun hm => h3.2 ((mem_of_quiet h5 rfl).1 hm)⟩

theorem Settled.congr (h : quiet tr' = quiet tr) (hs : Settled tr') : Settled tr := by
  refine ⟨fun k x wait hk => ?_, fun a ha => hs.2 a (ha.congr h.symm)⟩
  rcases hs.1 k x wait ((mem_of_quiet h rfl).2 hk) with ⟨r, h1⟩ | h1 | h1
  · exact .inl ⟨r, (mem_of_quiet h rfl).1 h1⟩
  · exact .inr (.inl ((mem_of_quiet h rfl).1 h1))
  · exact .inr (.inr (h1.congr h))

theorem InChannel.congr {a : OpId} (h : quiet tr' = quiet tr) (hs : InChannel tr' a) : InChannel tr a := by
  obtain ⟨i, h1, h2⟩ := hs
  exact ⟨i, by rw [← coreOf_congr h]; exact h1, fun b hb hm => h2 b (by rw [received_congr h]; exact hb) ((mem_of_quiet h rfl).2 hm)⟩

theorem quiet_append_split {t a b : Trace V W} (h : quiet t = quiet (a ++ b)) : ∃ a' b', t = a' ++ b' ∧ quiet a' = quiet a ∧ quiet b' = quiet b := by
  rw [quiet_append, quiet_eq t, List.filter_eq_append_iff] at h
  obtain ⟨l1, l2, rfl, h2, h3⟩ := h
  exact ⟨l1, l2, rfl, by rw [quiet_eq]; exact h2, by rw [quiet_eq]; exact h3⟩

theorem WakeWasted.congr (h : quiet tr' = quiet tr) (hs : WakeWasted tr') : WakeWasted tr := by
  obtain ⟨pre, o, k, mid, post, rfl, h1, h2⟩ := hs
  obtain ⟨pre', r, rfl, h3, h4⟩ := quiet_split (e := .queue (.deq o k)) rfl h.symm
  obtain ⟨mid', post', rfl, h5, h6⟩ := quiet_append_split h4
  exact ⟨pre', o, k, mid', post', rfl,
    have hq : quiet (pre' ++ mid') = quiet (pre ++ mid) := by rw [quiet_append, quiet_append, h3, h5]
    h1.imp (mem_of_quiet hq rfl).2 (mem_of_quiet hq rfl).2,
    fun hm => h2 ((mem_of_quiet h5 rfl).1 hm)⟩

theorem OneDrop.congr (h : quiet tr' = quiet tr) (hs : OneDrop tr') : OneDrop tr := by
  rintro pre b post b' rfl h1
  obtain ⟨pre', post', rfl, h3, h4⟩ := quiet_split (e := .api (.dropRecv b)) rfl h
  exact (mem_of_quiet h3 rfl).1 (hs pre' b post' b' rfl ((mem_of_quiet h3 rfl).2 h1))

end

/-- The conditions under which the properties of the channel hold: as `Run`, with the two-step dequeue. -/
structure FRun (c : Config W) (tr : Trace V W) (f : FState w V W) : Prop where
  sized : WellSized w c.cap
  exec : FExec c tr f
  noStall : NoStall w c.cap (coreOf tr)

theorem FRun.sim {tr : Trace V W} {f : FState w V W} (h : FRun c tr f) : ∃ tr', Run c tr' f.abs ∧ quiet tr' = quiet tr := by
  obtain ⟨tr', h1, h2⟩ := h.exec.sim
  exact ⟨tr', ⟨h.sized, h1, by rw [coreOf_congr h2]; exact h.noStall⟩, h2⟩

theorem Run.fine {tr : Trace V W} {s : State w V W} (h : Run c tr s) : ∃ tr', FRun c tr' ⟨s, none⟩ ∧ quiet tr' = quiet tr := by
  obtain ⟨tr', h1, h2⟩ := h.exec.fine
  exact ⟨tr', ⟨h.sized, h1, by rw [coreOf_congr h2]; exact h.noStall⟩, h2⟩

end Thingbuf.Chan
