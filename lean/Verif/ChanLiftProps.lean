import Verif.ChanFineProps

/-!
# C02, C05 and C35 for the channel

In terms of the channel's API: send calls that returned a `SendRef`, messages received, `SendRef`s and `RecvRef`s that have not been dropped.
-/

namespace Thingbuf.Chan

variable {w : Nat} {V W : Type} {c : Config W} {tr : Trace V W} {s : State w V W} {f : FState w V W}

/-! ### Specification -/

/-- The `SendRef`s that send calls have returned. (`send` and `try_send` are `send_ref` and `try_send_ref`, with the `SendRef` filled and dropped at once.) -/
def sends (tr : Trace V W) : List OpId :=
  tr.filterMap fun | .api (.retSend _ (.ok a)) => some a | _ => none

/-- Operation `a` has given out a `SendRef` or a `RecvRef` the drop of which has not begun. -/
def LiveRef (tr : Trace V W) (a : OpId) : Prop :=
  (∃ k, .api (.retSend k (.ok a)) ∈ tr ∧ .api (.dropSend k) ∉ tr) ∨ (a ∈ received tr ∧ .api (.dropRecv a) ∉ tr)

/-- The element that the `SendRef` or `RecvRef` of operation `a` refers to is in slot `i`. -/
def RefersTo (tr : Trace V W) (a : OpId) (i : Nat) : Prop :=
  .core (.reserve a i) ∈ tr ∨ ∃ v, .core (.dequeue a i v) ∈ tr

/-! ### Lemmas -/

theorem nodup_filterMap {α β : Type} {g : α → Option β} {l : List α}
    (h : ∀ p x m y q, l = p ++ x :: (m ++ y :: q) → ∀ b, g x = some b → g y ≠ some b) : (l.filterMap g).Nodup := by
  induction l with
  | nil => exact List.nodup_nil
  | cons a l ih =>
    have h1 := ih fun p x m y q e => h (a :: p) x m y q (by rw [e]; rfl)
    cases ha : g a with
    | none => rwa [List.filterMap_cons_none ha]
    | some b =>
      rw [List.filterMap_cons_some ha]
      refine List.nodup_cons.2 ⟨fun hb => ?_, h1⟩
      obtain ⟨y, hy, hg⟩ := List.mem_filterMap.1 hb
      obtain ⟨m, q, e⟩ := List.append_of_mem hy
      exact h [] a m y q (by rw [e]; rfl) b ha hg

theorem nodup_length_le {α : Type} [DecidableEq α] {l l' : List α} (hn : l.Nodup) (h : ∀ x ∈ l, x ∈ l') : l.length ≤ l'.length := by
  induction l generalizing l' with
  | nil => simp
  | cons a l ih =>
    obtain ⟨h1, h2⟩ := List.nodup_cons.1 hn
    have h3 : a ∈ l' := h a (by simp)
    have := ih (l' := l'.erase a) h2 fun x hx => (List.mem_erase_of_ne (by rintro rfl; exact h1 hx)).2 (h x (by simp [hx]))
    rw [List.length_erase_of_mem h3] at this
    have := List.length_pos_of_mem h3
    simp only [List.length_cons]
    omega

theorem mem_sends {a : OpId} : a ∈ sends tr ↔ ∃ k, .api (.retSend k (.ok a)) ∈ tr := by
  unfold sends
  rw [List.mem_filterMap]
  constructor
  · rintro ⟨e, he, hg⟩
    split at hg
    · rename_i k b
      cases hg
      exact ⟨k, he⟩
    · cases hg
  · rintro ⟨k, hk⟩
    exact ⟨_, hk, rfl⟩

theorem ExecM.sends_nodup {m : Bool} {mm : Prop} (h : ExecM m c tr s) (hf : Facts mm w c.cap (coreOf tr)) : (sends tr).Nodup := by
  refine nodup_filterMap fun p x m y q e b hx hy => ?_
  split at hx
  · rename_i k b'
    cases hx
    split at hy
    · rename_i k' b'
      cases hy
      have hk : k' = k := (h.send_has_slot hf (k := k) (a := b) (by rw [e]; simp)).2.2 k' (by rw [e]; simp)
      subst hk
      have hl := h.life k'
      have h2 : Chan.life k' (apiOf tr) = Chan.life k' (apiOf p) ++ .retSend k' (.ok b) :: (Chan.life k' (apiOf m) ++ .retSend k' (.ok b) :: Chan.life k' (apiOf q)) := by
        rw [e]
        simp [apiOf, Chan.life, callOf]
      have h3 : (Chan.life k' (apiOf tr)).countP (fun | .retSend _ _ => true | _ => false) ≤ 1 := by
        generalize Chan.life k' (apiOf tr) = l at hl
        unfold LifeOk at hl
        split at hl
        · subst hl; simp
        · obtain ⟨_, _, rfl⟩ := hl; simp
        · obtain ⟨_, _, rfl⟩ := hl; simp
        · obtain ⟨_, _, _, rfl⟩ := hl; simp
        · obtain ⟨_, _, _, rfl⟩ := hl; simp
        · obtain ⟨_, _, rfl⟩ := hl; simp
        · obtain ⟨_, _, ⟨_, _, rfl⟩ | rfl | ⟨_, rfl⟩⟩ := hl <;> simp
        · obtain ⟨_, _, rfl⟩ := hl; simp
      rw [h2] at h3
      simp at h3
      omega
    · cases hy
  · cases hx

/-- The step that drops a `RecvRef`. -/
theorem ExecM.release_at {m : Bool} (h : ExecM m c tr s) {pre post : Trace V W} {a : OpId} {i : Nat} {v : Option V}
    (htr : tr = pre ++ .core (.release a i v) :: post) : ∃ post' : Trace V W, post = .api (.dropRecv a) :: post' := by
  obtain ⟨tr0, s0, s1, l, r, rest, h1, h2, h3, rfl, rfl⟩ := h.at htr
  generalize hg : l ++ Ev.core (.release a i v) :: r = evs at h2
  cases h2 with
  | api hm => cases l <;> simp at hg
  | @core act s1 evs t es hs hm =>
    obtain ⟨e1, e2, rfl, rfl, rfl⟩ := core_split hg
    obtain ⟨hact, hk, hev⟩ := (core_evs hs).release a i v (by simp)
    subst hact
    cases e1 with
    | cons x e1 => simp at hev
    | nil =>
      simp only [List.nil_append, List.cons.injEq, true_and] at hev
      subst hev
      generalize hr : coreRet _ = r at hm
      generalize hact : (Act.dropRef a : Thingbuf.Act V) = act at hm
      cases hm <;> first | (cases hact; done) | (exact absurd hact.symm (runAct_drop _ _ _)) | (exact absurd hact.symm (pushAct_drop _ _ _)) | skip
      case dropSend k a' hp =>
        cases hact
        have := h1.coreOwns.sat (.snd k) a .pushHeld (by simp [coreClaim, claimOf, hp, sndCore])
        rw [actOp_drop, this] at hk; cases hk
      case dropRecv a' hp => cases hact; exact ⟨rest, rfl⟩
  | @cell act s1 evs t es hs hm =>
    have : Ev.core (.release a i v) ∈ List.map Ev.cell evs ++ List.map Ev.api es := by rw [← hg]; simp
    simp at this
  | @queue act s1 evs t es hs hm =>
    have : Ev.core (.release a i v) ∈ List.map Ev.queue evs ++ List.map Ev.api es := by rw [← hg]; simp
    simp at this

theorem ExecM.heldRet {m : Bool} (h : ExecM m c tr s) {k : Nat} {a : OpId} (hs : s.snd k = .held a) : .api (.retSend k (.ok a)) ∈ tr := by
  have h1 := h.life k
  rw [hs] at h1
  obtain ⟨z, wt, h2⟩ := h1
  exact (mem_life (by rfl)).1 (by rw [h2]; simp)

/-- No operation both reserves and dequeues. -/
theorem ExecM.res_not_deq {m : Bool} {mm : Prop} (h : ExecM m c tr s) (hf : Facts mm w c.cap (coreOf tr)) {a : OpId} (h1 : a ∈ resOps (coreOf tr)) (h2 : a ∈ deqOps (coreOf tr)) : False := by
  obtain ⟨i, hi⟩ := mem_resOps.1 h1
  obtain ⟨j, v, hj⟩ := mem_deqOps.1 h2
  obtain ⟨p, q, e⟩ := List.append_of_mem hi
  obtain ⟨p', q', e'⟩ := List.append_of_mem hj
  have i1 : Event.invoke a .push ∈ coreOf tr := by rw [e]; simp [(hf.evOk e).1.inv]
  have i2 : Event.invoke a .pop ∈ coreOf tr := by rw [e']; simp [(hf.evOk e').1.inv]
  cases hf.invoke_unique i1 i2

/-- An attempt is a push operation. -/
theorem ExecM.attempt_push {m : Bool} (h : ExecM m c tr s) {k : Nat} {a : OpId} (ha : .api (.attempt k a) ∈ tr) : .core (.invoke a .push) ∈ tr := by
  obtain ⟨pre, post, htr⟩ := List.append_of_mem ha
  obtain ⟨tr0, s0, s1, l, r, rest, h1, h2, h3, rfl, rfl⟩ := h.at htr
  cases h2.apiStep rfl with
  | api hm => cases hm
  | cell es1 es2 hs hm => generalize hg : es1 ++ Api.attempt k a :: es2 = es at hm; cases hm <;> cases es1 <;> simp at hg
  | queue es1 es2 hs hm => generalize hg : es1 ++ Api.attempt k a :: es2 = es at hm; cases hm <;> cases es1 <;> simp at hg
  | @core act s1 evs t es1 es2 hs hm hl =>
    generalize hg : es1 ++ Api.attempt k a :: es2 = es at hm
    generalize hrr : coreRet evs = rr at hm
    have hi := (core_evs hs).inv
    rw [htr, hl]
    cases hm <;> try (cases es1 <;> simp at hg; done)
    case send =>
      rcases es1 with _ | ⟨_, _ | ⟨_, _⟩⟩ <;> simp at hg
      obtain ⟨-, ⟨rfl, rfl⟩, -⟩ := hg
      simp [(hi _ _).2 rfl]
    case retry =>
      rcases es1 with _ | ⟨_, _ | ⟨_, _⟩⟩ <;> simp at hg
      obtain ⟨⟨rfl, rfl⟩, -⟩ := hg
      simp [(hi _ _).2 rfl]

/-- A live reference holds its slot: at the end of a step, or before an event of the ring buffer. -/
theorem ExecM.live_holds {m : Bool} {mm : Prop} (h : ExecM m c tr s) (hf : Facts mm w c.cap (coreOf tr)) {pre post : Trace V W} (htr : tr = pre ++ post) (hpost : ∀ e l, post = e :: l → ∃ x, e = .core x) {a : OpId} {i : Nat}
    (hl : LiveRef pre a) (hr : RefersTo pre a i) : Holds (coreOf pre) a i := by
  have mono : ∀ e, e ∈ pre → e ∈ tr := fun e he => by rw [htr]; simp [he]
  have hres : ∀ k, .api (.retSend k (.ok a)) ∈ pre → a ∈ resOps (coreOf tr) := fun k hk => (h.send_has_slot hf (mono _ hk)).2.1
  have hdeq : a ∈ Chan.received pre → a ∈ deqOps (coreOf tr) := by
    intro hd
    rw [← h.received, htr, received_append]
    simp [hd]
  refine ⟨?_, ?_, ?_⟩
  · rcases hr with hr | ⟨v, hr⟩
    · exact .inl (mem_coreOf.2 hr)
    · exact .inr ⟨v, mem_coreOf.2 hr⟩
  · rintro ⟨j, v, hc⟩
    obtain ⟨p1, p2, rfl⟩ := List.append_of_mem (mem_coreOf.1 hc)
    obtain ⟨k', s0, post', h1, h2, h3⟩ := h.commit_at (pre := p1) (post := p2 ++ post) (a := a) (i := j) (v := v) (by rw [htr]; simp)
    have h4 : .api (.dropSend k') ∈ p2 := by
      cases p2 with
      | nil => obtain ⟨x, hx⟩ := hpost _ _ h3; cases hx
      | cons x p2 => cases h3; simp
    have h5 : .api (.retSend k' (.ok a)) ∈ p1 := h1.heldRet h2
    rcases hl with ⟨k, h6, h7⟩ | ⟨h6, h7⟩
    · have := (h.send_has_slot hf (mono _ h6)).2.2 k' (mono _ (by simp [h5]))
      subst this
      exact h7 (by simp [h4])
    · exact h.res_not_deq hf (hres k' (by simp [h5])) (hdeq h6)
  · rintro ⟨j, v, hc⟩
    obtain ⟨p1, p2, rfl⟩ := List.append_of_mem (mem_coreOf.1 hc)
    obtain ⟨post', h3⟩ := h.release_at (pre := p1) (post := p2 ++ post) (a := a) (i := j) (v := v) (by rw [htr]; simp)
    have h4 : .api (.dropRecv a) ∈ p2 := by
      cases p2 with
      | nil => obtain ⟨x, hx⟩ := hpost _ _ h3; cases hx
      | cons x p2 => cases h3; simp
    rcases hl with ⟨k, h6, h7⟩ | ⟨h6, h7⟩
    · have hd : a ∈ deqOps (coreOf tr) := by
        have e : coreOf tr = coreOf p1 ++ .release a j v :: (coreOf p2 ++ coreOf post) := by rw [htr]; simp [coreOf]
        obtain ⟨⟨p, -, hp⟩, -⟩ := hf.evOk e
        rw [e, deqOps_append]
        exact List.mem_append_left _ (List.mem_of_getElem? hp.1)
      exact h.res_not_deq hf (hres k h6) hd
    · exact h7 (by simp [h4])

theorem sends_congr {tr' : Trace V W} (h : quiet tr' = quiet tr) : sends tr' = sends tr := by
  unfold sends
  rw [← filterMap_quiet _ (fun _ _ => rfl) tr', h, filterMap_quiet _ (fun _ _ => rfl) tr]

theorem LiveRef.congr {tr' : Trace V W} (h : quiet tr' = quiet tr) {a : OpId} : LiveRef tr' a ↔ LiveRef tr a := by
  unfold LiveRef
  rw [received_congr h, mem_of_quiet h rfl]
  simp only [mem_of_quiet h (e := .api (.retSend _ _)) rfl, mem_of_quiet h (e := .api (.dropSend _)) rfl]

theorem RefersTo.congr {tr' : Trace V W} (h : quiet tr' = quiet tr) {a : OpId} {i : Nat} : RefersTo tr' a i ↔ RefersTo tr a i := by
  unfold RefersTo
  simp only [mem_of_quiet h (e := .core _) rfl]

section
variable {m : Bool} {mm : Prop} (h : ExecM m c tr s) (hf : Facts mm w c.cap (coreOf tr))
include h hf

theorem ExecM.capacity : (Chan.received tr).length ≤ (sends tr).length ∧ (sends tr).length ≤ (Chan.received tr).length + c.cap := by
  rw [h.received]
  obtain ⟨h2, h3, -⟩ := hf.capacity (List.prefix_refl _)
  rw [List.length_drop] at h3
  constructor
  · have h4 : ((resOps (coreOf tr)).take (nDeq (coreOf tr))).length ≤ (sends tr).length := by
      refine nodup_length_le (hf.nodup_res.sublist (List.take_sublist ..)) fun a ha => ?_
      obtain ⟨i, hi, rfl⟩ := List.mem_take_iff_getElem.1 ha
      obtain ⟨a', k, x, slot, h5, h6, -⟩ := h.received_from hf (i := i) (b := (deqOps (coreOf tr))[i]'(by unfold nDeq at hi; omega))
        (by rw [h.received]; simp)
      rw [List.getElem?_eq_getElem (by omega)] at h5
      simp only [Option.some.injEq] at h5
      rw [h5]
      exact mem_sends.2 ⟨k, h6⟩
    rw [List.length_take] at h4
    unfold nDeq nRes at *
    omega
  · have h4 := nodup_length_le (h.sends_nodup hf) (l' := resOps (coreOf tr)) fun a ha => by
      obtain ⟨k, hk⟩ := mem_sends.1 ha
      exact (h.send_has_slot hf hk).2.1
    unfold nDeq nRes at *
    omega

theorem ExecM.live_refs {a b : OpId} {i : Nat} (ha : LiveRef tr a) (hb : LiveRef tr b) (hai : RefersTo tr a i) (hbi : RefersTo tr b i) : a = b := by
  have hp : ∀ e l, ([] : Trace V W) = e :: l → ∃ x, e = .core x := fun _ _ h => by cases h
  exact hf.exclusive.1 _ _ _ _ (List.prefix_refl _) (h.live_holds hf (post := []) (by simp) hp ha hai)
    (h.live_holds hf (post := []) (by simp) hp hb hbi)

theorem ExecM.live_exclusive {pre post : Trace V W} {a b : OpId} {i : Nat} {x : Access V} (htr : tr = pre ++ .core (.access b i x) :: post)
    (ha : LiveRef pre a) (hai : RefersTo pre a i) : b = a := by
  have hh := h.live_holds hf htr (fun e l he => by cases he; exact ⟨_, rfl⟩) ha hai
  have h4 : coreOf tr = coreOf pre ++ .access b i x :: coreOf post := by rw [htr]; simp [coreOf]
  exact hf.exclusive.1 _ _ _ _ ⟨_, h4.symm⟩ (hf.exclusive.2.1 _ _ _ _ _ h4) hh

theorem ExecM.live_refers {a : OpId} (ha : LiveRef tr a) : ∃ i, i < c.cap ∧ RefersTo tr a i := by
  obtain ⟨b1, b2, -⟩ := hf.slots_in_bounds
  rcases ha with ⟨k, hk, -⟩ | ⟨hr, -⟩
  · obtain ⟨i, hi⟩ := mem_resOps.1 (h.send_has_slot hf hk).2.1
    exact ⟨i, b1 _ _ hi, .inl (mem_coreOf.1 hi)⟩
  · rw [h.received] at hr
    obtain ⟨i, v, hi⟩ := mem_deqOps.1 hr
    exact ⟨i, b2 _ _ _ hi, .inr ⟨v, mem_coreOf.1 hi⟩⟩

theorem ExecM.failed_send {k : Nat} {r : SendRes} (hr : .api (.retSend k r) ∈ tr) (hfl : r = .full ∨ r = .closed ∨ r = .timeout) {a : OpId}
    (ha : .api (.attempt k a) ∈ tr) : a ∉ resOps (coreOf tr) ∧ ∀ i x, .core (.access a i x) ∉ tr := by
  have h2 : a ∉ resOps (coreOf tr) := by
    intro hc
    obtain ⟨-, h5, -⟩ := h.sender_life hf hc ha
    rcases h5 r hr with rfl | rfl <;> simp at hfl
  refine ⟨h2, fun i x hx => ?_⟩
  obtain ⟨p, q, e⟩ := List.append_of_mem (mem_coreOf.2 hx)
  obtain ⟨h3, -⟩ := hf.exclusive.2.1 _ _ _ _ _ e
  rcases h3 with h3 | ⟨v, h3⟩
  · exact h2 (mem_resOps.2 ⟨i, by rw [e]; simp [h3]⟩)
  · obtain ⟨p', q', e'⟩ := List.append_of_mem (show Event.dequeue a i v ∈ coreOf tr by rw [e]; simp [h3])
    have i2 : Event.invoke a .pop ∈ coreOf tr := by rw [e']; simp [(hf.evOk e').1.inv]
    cases hf.invoke_unique (mem_coreOf.2 (h.attempt_push ha)) i2

/-- A send call that is made when another one has returned its `SendRef` is behind it in the order of the messages. -/
theorem ExecM.send_order {pre post : Trace V W} {k j x : Nat} {wt : Bool} {a b : OpId} (htr : tr = pre ++ .api (.callSend j x wt) :: post)
    (ha : .api (.retSend k (.ok a)) ∈ pre) (hb : .api (.retSend j (.ok b)) ∈ tr) {p q : Nat} (hp : (resOps (coreOf tr))[p]? = some a)
    (hq : (resOps (coreOf tr))[q]? = some b) : p < q := by
  obtain ⟨tr0, s0, s1, l, r, rest, h1, h2, h3, rfl, rfl, h4⟩ := h.at' htr
  -- before the step there is no attempt of call `j`
  have hoff : s0.snd j = .off ∧ ∃ evs : List (Event V), l = evs.map .core := by
    generalize hg : l ++ Ev.api (.callSend j x wt) :: r = evs at h2
    cases h2.apiStep hg.symm with
    | api hm => cases hm
    | cell es1 es2 hs hm => generalize hg : es1 ++ Api.callSend j x wt :: es2 = es at hm; cases hm <;> cases es1 <;> simp at hg
    | queue es1 es2 hs hm => generalize hg : es1 ++ Api.callSend j x wt :: es2 = es at hm; cases hm <;> cases es1 <;> simp at hg
    | @core act s1 evs t es1 es2 hs hm hl =>
      generalize hg : es1 ++ Api.callSend j x wt :: es2 = es at hm
      generalize hrr : coreRet evs = rr at hm
      cases hm <;> try (cases es1 <;> simp at hg; done)
      case send =>
        rcases es1 with _ | ⟨_, _ | ⟨_, _⟩⟩ <;> simp at hg
        obtain ⟨⟨rfl, rfl, rfl⟩, -⟩ := hg
        exact ⟨by assumption, evs, by simpa using hl⟩
  obtain ⟨hoff, evs, rfl⟩ := hoff
  have hno : .core (.invoke b .push) ∉ tr0 := by
    intro hi
    obtain ⟨j', hj⟩ := h1.attInv.call b hi
    have hjj : j' = j := h.attInv.uniq j' j b (by rw [htr]; simp [hj]) (h.ret_ok hb).1
    have := h1.attInv.att j
    rw [hoff] at this
    exact this b (hjj ▸ hj)
  have hret : .core (.ret a .pushed) ∈ tr0 := by
    have : .api (.retSend k (.ok a)) ∈ tr0 := by simpa using ha
    exact (h1.ret_ok this).2
  have hinv : .core (.invoke b .push) ∈ tr := h.attempt_push (h.ret_ok hb).1
  rw [htr, List.append_assoc] at hinv
  obtain ⟨y, z, hyz⟩ := List.append_of_mem ((List.mem_append.1 hinv).resolve_left hno)
  have e : coreOf tr = coreOf (tr0 ++ y) ++ .invoke b .push :: coreOf z := by
    rw [htr, List.append_assoc, hyz]; simp [coreOf]
  exact hf.producer_order e ⟨_, mem_coreOf.2 (List.mem_append_left _ hret)⟩ hp hq

end

/-! ### C02 -/

/-- **C02** for the channel. At every instant, send calls have returned at least as many `SendRef`s as messages have been received, and at most as many more as the channel has
capacity. -/
theorem C02_channel_capacity (h : FRun c tr f) : (received tr).length ≤ (sends tr).length ∧ (sends tr).length ≤ (received tr).length + c.cap := by
  obtain ⟨tr', h1, hq⟩ := h.sim
  rw [← received_congr hq, ← sends_congr hq]
  exact h1.exec.capacity h1.core.facts

/-! ### C05 -/

/-- **C05** for the channel. Two `SendRef`s or `RecvRef`s that have not been dropped never refer to the same element. -/
theorem C05_channel_refs (h : FRun c tr f) {a b : OpId} {i : Nat} (ha : LiveRef tr a) (hb : LiveRef tr b) (hai : RefersTo tr a i)
    (hbi : RefersTo tr b i) : a = b := by
  obtain ⟨tr', h1, hq⟩ := h.sim
  rw [← LiveRef.congr hq] at ha hb
  rw [← RefersTo.congr hq] at hai hbi
  exact h1.exec.live_refs h1.core.facts ha hb hai hbi

/-- **C05** for the channel. While a `SendRef` or `RecvRef` has not been dropped, the element it refers to is accessed (initialised, recycled, read or written) only through it. -/
theorem C05_channel_exclusive (h : FRun c tr f) {pre post : Trace V W} {a b : OpId} {i : Nat} {x : Access V} (htr : tr = pre ++ .core (.access b i x) :: post)
    (ha : LiveRef pre a) (hai : RefersTo pre a i) : b = a := by
  obtain ⟨tr', h1, hq⟩ := h.sim
  obtain ⟨pre', post', h2, h3, -⟩ := quiet_split (e := .core (.access b i x)) rfl (htr ▸ hq)
  rw [← LiveRef.congr h3] at ha
  rw [← RefersTo.congr h3] at hai
  exact h1.exec.live_exclusive h1.core.facts h2 ha hai

/-- And a `SendRef` or `RecvRef` that a call returned does refer to an element. -/
theorem C05_channel_refers (h : FRun c tr f) {a : OpId} (ha : LiveRef tr a) : ∃ i, i < c.cap ∧ RefersTo tr a i := by
  obtain ⟨tr', h1, hq⟩ := h.sim
  rw [← LiveRef.congr hq] at ha
  simp only [← RefersTo.congr hq]
  exact h1.exec.live_refers h1.core.facts ha

/-! ### C14 -/

/-- **C14** for the channel. If one send call returned its `SendRef` before another one was made, and that one got a `SendRef` as well, then the messages are received in this order: the message of
the first call is ahead of that of the second one in the order in which messages are received (`C45_received_fine`). So it is with the messages of one thread. -/
theorem C14_channel_order (h : FRun c tr f) {pre post : Trace V W} {k j x : Nat} {wt : Bool} {a b : OpId} (htr : tr = pre ++ .api (.callSend j x wt) :: post)
    (ha : .api (.retSend k (.ok a)) ∈ pre) (hb : .api (.retSend j (.ok b)) ∈ tr) {p q : Nat} (hp : (resOps (coreOf tr))[p]? = some a)
    (hq : (resOps (coreOf tr))[q]? = some b) : p < q := by
  obtain ⟨tr', h1, hqt⟩ := h.sim
  obtain ⟨pre', post', h2, h3, -⟩ := quiet_split (e := .api (.callSend j x wt)) rfl (htr ▸ hqt)
  rw [← coreOf_congr hqt] at hp hq
  exact h1.exec.send_order h1.core.facts h2 ((mem_of_quiet h3 rfl).2 ha) ((mem_of_quiet hqt rfl).2 hb) hp hq

/-! ### C35 -/

/-- **C35** for the channel. A send call that returned `Full`, `Closed` or `Timeout` has not put anything into the channel: none of its attempts ever reserved a slot, and none accessed an
element. -/
theorem C35_channel_failed_send (h : FRun c tr f) {k : Nat} {r : SendRes} (hr : .api (.retSend k r) ∈ tr) (hf : r = .full ∨ r = .closed ∨ r = .timeout) {a : OpId}
    (ha : .api (.attempt k a) ∈ tr) : a ∉ resOps (coreOf tr) ∧ ∀ i x, .core (.access a i x) ∉ tr := by
  obtain ⟨tr', h1, hq⟩ := h.sim
  rw [← coreOf_congr hq]
  simp only [← mem_of_quiet hq (e := .core _) rfl]
  rw [← mem_of_quiet hq rfl] at hr ha
  exact h1.exec.failed_send h1.core.facts hr hf ha

/-! ### Example -/

/-- Capacity 2. Calls 1 and 2 send, call 3 finds the channel full; the first message is received. The `SendRef` of call 2 and the `RecvRef` are held. -/
def liftDemo : List It :=
  iSend 1 100 11 ++ iDropSend 1 200 ++ iSend 2 101 12 ++ iSend 3 103 13 0 false ++ iPoll 5 [102]

example (blocking : Bool) : ∃ (tr : Trace Nat Nat) (f : FState 8 Nat Nat), FRun (demoC 2 blocking) tr f ∧
    sends tr = [100, 101] ∧ received tr = [102] ∧ LiveRef tr 101 ∧ LiveRef tr 102 ∧ ¬ LiveRef tr 100 ∧ RefersTo tr 101 1 ∧ RefersTo tr 102 0 ∧
    .api (.retSend 3 .full) ∈ tr ∧ .api (.attempt 3 103) ∈ tr := by
  obtain ⟨f, hf⟩ : ∃ f : FState 8 Nat Nat, FRun (demoC 2 blocking) (fscriptTr (demoC 2 blocking) liftDemo) f := by
    cases blocking <;> exact FRun.of_fscriptTr (by decide) (by decide +kernel) (by decide +kernel)
  refine ⟨_, f, hf, by cases blocking <;> decide +kernel, by cases blocking <;> decide +kernel, .inl ⟨2, ?_, ?_⟩, .inr ⟨?_, ?_⟩, ?_, .inl ?_, .inr ⟨some 11, ?_⟩, ?_, ?_⟩
  case refine_5 =>
    rintro (⟨k, hk, hd⟩ | ⟨hr, -⟩)
    · have h1 : .api (.retSend 1 (.ok 100)) ∈ fscriptTr (demoC 2 blocking) liftDemo := by cases blocking <;> decide +kernel
      have h2 : .api (.dropSend 1) ∈ fscriptTr (demoC 2 blocking) liftDemo := by cases blocking <;> decide +kernel
      obtain ⟨tr', h3, hq⟩ := hf.sim
      have := (C48_send_has_slot h3 ((mem_of_quiet hq rfl).2 h1)).2.2 k ((mem_of_quiet hq rfl).2 hk)
      subst this
      exact hd h2
    · revert hr
      cases blocking <;> decide +kernel
  all_goals cases blocking <;> decide +kernel

/-- C14: the hypotheses are met. Send call 1 has returned `SendRef` 100 when call 2 is made, which returns `SendRef` 101. -/
example (blocking : Bool) : ∃ (tr : Trace Nat Nat) (f : FState 8 Nat Nat) (pre post : Trace Nat Nat), FRun (demoC 2 blocking) tr f ∧
    tr = pre ++ .api (.callSend 2 0 true) :: post ∧ .api (.retSend 1 (.ok 100)) ∈ pre ∧ .api (.retSend 2 (.ok 101)) ∈ tr ∧
    (resOps (coreOf tr))[0]? = some 100 ∧ (resOps (coreOf tr))[1]? = some 101 := by
  obtain ⟨f, hf⟩ : ∃ f : FState 8 Nat Nat, FRun (demoC 2 blocking) (fscriptTr (demoC 2 blocking) liftDemo) f := by
    cases blocking <;> exact FRun.of_fscriptTr (by decide) (by decide +kernel) (by decide +kernel)
  let n := (fscriptTr (demoC 2 blocking) liftDemo).findIdx (fun e => decide (e = .api (.callSend 2 0 true)))
  refine ⟨_, f, (fscriptTr (demoC 2 blocking) liftDemo).take n, (fscriptTr (demoC 2 blocking) liftDemo).drop (n + 1), hf, ?_, ?_, ?_, ?_, ?_⟩
  all_goals cases blocking <;> decide +kernel

end Thingbuf.Chan
