import Verif.TraceFacts
/-
What single steps of the ring buffer machine do, when the words involved are encodings of positions.
-/
namespace Thingbuf

variable {w cap : Nat} {V : Type} {s : State w V} {a : OpId} {b : Backoff}

@[simp] theorem goto_goto (s : State w V) (a : OpId) (x y : PC w) :
    (s.goto a x).goto a y = s.goto a y := by
  simp only [State.goto]
  congr 1
  funext j
  simp only [upd]
  split <;> rfl

@[simp] theorem goto_head (s : State w V) (a : OpId) (x : PC w) : (s.goto a x).head = s.head := rfl
@[simp] theorem goto_tail (s : State w V) (a : OpId) (x : PC w) : (s.goto a x).tail = s.tail := rfl
@[simp] theorem goto_st (s : State w V) (a : OpId) (x : PC w) : (s.goto a x).st = s.st := rfl
@[simp] theorem goto_val (s : State w V) (a : OpId) (x : PC w) : (s.goto a x).val = s.val := rfl
@[simp] theorem goto_pc_self' (s : State w V) (a : OpId) (x : PC w) : (s.goto a x).pc a = x := by
  simp [State.goto]

theorem enc_ne_enc_add_cap (hw : WellSized w cap) (p : Nat) : enc w cap p ≠ enc w cap (p + cap) := by
  intro h
  have h1 := period_ge hw
  have h2 := hw.1
  have := enc_inj hw h (by omega) (by omega)
  omega

theorem pushLoop_closed (hw : WellSized w cap) {T : Nat} :
    pushLoop (Params.new w cap) cap s a b (tailWord w cap T true) = (s.goto a .done, [.ret a .closed]) := by
  unfold pushLoop
  rw [if_pos ((closedBit_tailWord hw T true).2 rfl)]

theorem not_closed_enc (hw : WellSized w cap) (T : Nat) :
    ¬ (enc w cap T &&& (Params.new w cap).closed ≠ 0#w) := by
  rw [← tailWord_false, closedBit_tailWord hw]; simp

theorem pushLoop_free (hw : WellSized w cap) {T : Nat} (hst : s.st (T % cap) = enc w cap T) :
    pushLoop (Params.new w cap) cap s a b (enc w cap T) = (s.goto a (.pushCas b (enc w cap T)), []) := by
  unfold pushLoop
  rw [if_neg (not_closed_enc hw T)]
  simp only [idx_enc hw]
  rw [if_neg (by simpa using Nat.mod_lt T hw.1), if_pos hst]

theorem pushLoop_prev (hw : WellSized w cap) {P T : Nat} (hT : T = P + cap)
    (hst : s.st (T % cap) = enc w cap P + 1#w) :
    pushLoop (Params.new w cap) cap s a b (enc w cap T) = (s.goto a (.pushHead b (enc w cap T)), []) := by
  have hm : T % cap = P % cap := by rw [hT]; simp
  unfold pushLoop
  rw [if_neg (not_closed_enc hw T)]
  simp only [idx_enc hw]
  rw [if_neg (by simpa using Nat.mod_lt T hw.1),
    if_neg (by rw [hst]; exact fun h => enc_ne_enc_succ hw hm h.symm), enc_succ_checked hw]
  simp only
  rw [if_pos (by rw [hst, enc_succ_add_gen hw, hT])]

theorem pushLoop_other (hw : WellSized w cap) {P T : Nat} (hT : T = P + cap)
    (hst : s.st (T % cap) = enc w cap P) :
    pushLoop (Params.new w cap) cap s a b (enc w cap T) = (s.goto a (.pushReload b.spinYield), []) := by
  unfold pushLoop
  rw [if_neg (not_closed_enc hw T)]
  simp only [idx_enc hw]
  rw [if_neg (by simpa using Nat.mod_lt T hw.1),
    if_neg (by rw [hst, hT]; exact enc_ne_enc_add_cap hw P), enc_succ_checked hw]
  simp only
  rw [if_neg (by rw [hst, enc_add_gen hw, ← hT]; exact enc_ne_enc_succ hw rfl)]

theorem next_enc' (hw : WellSized w cap) (p : Nat) :
    (Params.new w cap).next ((Params.new w cap).idxGen (enc w cap p)).1
      ((Params.new w cap).idxGen (enc w cap p)).2 = some (enc w cap (p + 1)) := next_enc hw p

theorem pushCas_ok (hw : WellSized w cap) {T : Nat} (ht : s.tail = enc w cap T) :
    pushCas (Params.new w cap) s a b (enc w cap T) false =
      ({ s.goto a (.pushInit (enc w cap T)) with tail := enc w cap (T + 1) }, [.reserve a (T % cap)]) := by
  unfold pushCas
  simp only [next_enc' hw, ht, idx_enc hw, and_self, if_true]

theorem pushCas_spurious (hw : WellSized w cap) {T : Nat} :
    pushCas (Params.new w cap) s a b (enc w cap T) true = (s.goto a (.pushLoop b.spin s.tail), []) := by
  unfold pushCas
  simp [next_enc' hw]

theorem pushHead_full (hw : WellSized w cap) {H T : Nat} (hh : s.head = enc w cap H) (hT : T = H + cap) :
    pushHead (Params.new w cap) s a b (enc w cap T) = (s.goto a .done, [.ret a .full]) := by
  unfold pushHead
  rw [if_pos (by rw [hh, enc_add_gen hw, hT])]

theorem pushHead_not_full (hw : WellSized w cap) {H T : Nat} (hh : s.head = enc w cap H) (hT : T < H + cap)
    (hH : H ≤ T) : pushHead (Params.new w cap) s a b (enc w cap T) = (s.goto a (.pushReload b.spin), []) := by
  unfold pushHead
  rw [if_neg]
  rw [hh, enc_add_gen hw]
  intro h
  have h1 := period_ge hw
  have := enc_inj hw h (by omega) (by omega)
  omega

theorem pushElem_eq (hw : WellSized w cap) {T : Nat} {v : V} :
    pushElem (Params.new w cap) s a (enc w cap T) v =
      ({ s with val := upd s.val (T % cap) (some v) }.goto a (.pushHeld (T % cap) (enc w cap T + 1#w)),
        [.access a (T % cap) (if T / cap % numGens w cap = 0 then .create v
          else .recycle (s.val (T % cap)) v), .ret a .pushed]) := by
  unfold pushElem
  simp only [enc_succ_checked hw, idx_enc hw, gen_eq_zero hw]

theorem popLoop_ready (hw : WellSized w cap) {H : Nat} (hst : s.st (H % cap) = enc w cap H + 1#w) :
    popLoop (Params.new w cap) cap s a b (enc w cap H) = (s.goto a (.popCas b (enc w cap H)), []) := by
  unfold popLoop
  simp only [idx_enc hw]
  rw [if_neg (by simpa using Nat.mod_lt H hw.1), enc_succ_checked hw]
  simp only
  rw [if_pos hst]

theorem popLoop_free (hw : WellSized w cap) {H : Nat} (hst : s.st (H % cap) = enc w cap H) :
    popLoop (Params.new w cap) cap s a b (enc w cap H) = (s.goto a (.popTail b (enc w cap H)), []) := by
  unfold popLoop
  simp only [idx_enc hw]
  rw [if_neg (by simpa using Nat.mod_lt H hw.1), enc_succ_checked hw]
  simp only
  rw [if_neg (by rw [hst]; exact enc_ne_enc_succ hw rfl), if_pos hst]

theorem popLoop_prev (hw : WellSized w cap) {P H : Nat} (hH : H = P + cap)
    (hst : s.st (H % cap) = enc w cap P + 1#w) :
    popLoop (Params.new w cap) cap s a b (enc w cap H) = (s.goto a (.popReload b.spinYield), []) := by
  have hm : H % cap = P % cap := by rw [hH]; simp
  unfold popLoop
  simp only [idx_enc hw]
  rw [if_neg (by simpa using Nat.mod_lt H hw.1), enc_succ_checked hw]
  simp only
  rw [if_neg (by rw [hst, hH]; exact fun h => enc_ne_enc_add_cap hw P (succ_inj h)),
    if_neg (by rw [hst]; exact fun h => enc_ne_enc_succ hw hm h.symm)]

theorem popCas_ok (hw : WellSized w cap) {H : Nat} (hh : s.head = enc w cap H) :
    popCas (Params.new w cap) s a b (enc w cap H) false =
      ({ s.goto a (.popHeld (H % cap) (enc w cap (H + cap))) with head := enc w cap (H + 1) },
        [.dequeue a (H % cap) (s.val (H % cap)), .ret a .popped]) := by
  unfold popCas
  simp only [next_enc' hw, hh, idx_enc hw, and_self, if_true, enc_add_gen hw]

theorem popCas_spurious (hw : WellSized w cap) {H : Nat} :
    popCas (Params.new w cap) s a b (enc w cap H) true = (s.goto a (.popLoop b.spin s.head), []) := by
  unfold popCas
  simp [next_enc' hw]

theorem popTail_empty (hw : WellSized w cap) {H : Nat} {c : Bool} (ht : s.tail = tailWord w cap H c) :
    popTail (Params.new w cap) s a b (enc w cap H) =
      (s.goto a .done, [.ret a (if c then .closed else .empty)]) := by
  unfold popTail
  rw [ht, tailWord_and_not_closed hw, if_pos rfl]
  have := closedBit_tailWord hw H c
  cases c
  · rw [if_neg (by rw [this]; simp)]; rfl
  · rw [if_pos (this.2 rfl)]; rfl

theorem popTail_busy (hw : WellSized w cap) {H T : Nat} {c : Bool} (ht : s.tail = tailWord w cap T c)
    (h1 : H < T) (h2 : T ≤ H + cap) :
    popTail (Params.new w cap) s a b (enc w cap H) =
      if b.doneSpinning then (s.goto a .done, [.ret a .empty]) else (s.goto a (.popReload b.spin), []) := by
  unfold popTail
  rw [ht, tailWord_and_not_closed hw, if_neg]
  intro h
  have h3 := period_ge hw
  have := enc_inj hw h (by omega) (by omega)
  omega

end Thingbuf
